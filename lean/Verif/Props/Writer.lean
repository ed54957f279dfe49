import Verif.Gen.AnyWriter
import Verif.Props.Decode
/-
Property C09: how the writer accepts bytes does not matter.

`runSer o w (serialize …)`: `Serialize` on the writer `w`, whose `Write` is `o.write`; the result
is the writer afterwards and the error. `o.Takes view`: the contract of `io.Writer`; `view w` are
the bytes `w` has taken.
-/
namespace Verif.Props
open Verif
set_option linter.unusedVariables false

/-- C09: a `ByteWriter` (`bw = true`) gets the same bytes as any other writer, and the error is
nil for the one if it is for the other. For every value, also for values that cannot be
serialized, and every map order. -/
theorem same_bytes_any_writer (s : Schema) (mo : MapOrder) (v : Val) (bw bw' : Bool) :
    wire s bw mo v = wire s bw' mo v ∧
    (serialize s.env bw mo v s.root).2 = (serialize s.env bw' mo v s.root).2 :=
  ser_same s.env bw bw' mo v s.root []

/-- C09: `Serialize` returns nil only if the writer took the whole encoding; if it returns an
error, the writer took a beginning of it. -/
theorem failing_writer {W : Type} {o : WriterOps W} {view : W → List Byte} (ho : o.Takes view)
    (s : Schema) (bw : Bool) (mo : MapOrder) (v : Val) (w : W) :
    match runSer o w (serialize s.env bw mo v s.root) with
    | (w', none) => view w' = view w ++ wire s bw mo v ∧ (serialize s.env bw mo v s.root).2 = true
    | (w', some _) => ∃ q, q <+: wire s bw mo v ∧ view w' = view w ++ q := by
  have h := runChunks_view ho (serialize s.env bw mo v s.root).1 w
  unfold runSer
  rcases hr : runChunks o w (serialize s.env bw mo v s.root).1 with ⟨w', _ | e⟩ <;> rw [hr] at h <;>
    simp only at h ⊢
  · cases hf : (serialize s.env bw mo v s.root).2
    · exact ⟨_, List.prefix_refl _, h⟩
    · exact ⟨h, rfl⟩
  · exact h

/-- C09: a value of its type fails to serialize only because of the writer. -/
theorem only_writer_fails {W : Type} {o : WriterOps W} {s : Schema} {lim : Nat} (hl : lim < 2 ^ 63) {v : Val}
    (hv : HasTy s.env lim v s.root) (bw : Bool) (mo : MapOrder) (w : W) :
    (runSer o w (serialize s.env bw mo v s.root)).2 ≠ some .invalid := by
  obtain ⟨d, e, h1, h2, h3, h4, h5⟩ := ser_enc s.env bw mo hl v s.root [] hv
  have h4 : (serialize s.env bw mo v s.root).2 = true := h4
  unfold runSer
  rcases runChunks o w (serialize s.env bw mo v s.root).1 with ⟨w', _ | e⟩ <;> simp [h4]

/-- C09, for a writer that runs full: with room for the encoding it takes it and there is no
error; otherwise it is filled with the beginning of the encoding and there is an error. -/
theorem full_writer {s : Schema} {lim : Nat} (hl : lim < 2 ^ 63) {v : Val} (hv : HasTy s.env lim v s.root)
    (bw : Bool) (mo : MapOrder) (cap : Nat) :
    runSer (boundedWriter cap) [] (serialize s.env bw mo v s.root) =
      if (wire s bw mo v).length ≤ cap then (wire s bw mo v, none)
      else ((wire s bw mo v).take cap, some (.writer 0)) := by
  obtain ⟨d, e, h1, h2, h3, h4, h5⟩ := ser_enc s.env bw mo hl v s.root [] hv
  have h4 : (serialize s.env bw mo v s.root).2 = true := h4
  unfold runSer
  rw [runChunks_bounded cap _ [] (by simp)]
  simp only [List.length_nil, Nat.zero_add, List.nil_append, Nat.sub_zero, h4, if_true]
  by_cases h : (wire s bw mo v).length ≤ cap
  · rw [if_pos h, if_pos h]
  · rw [if_neg h, if_neg h]

example : runSer (boundedWriter 3) [] (serialize sample.env true .rev leafVal sample.root) =
    ((wire sample true .rev leafVal).take 3, some (.writer 0)) := by
  rw [full_writer (lim := 1000) (by decide) leafVal_hasTy, if_neg (by decide +kernel)]

end Verif.Props
