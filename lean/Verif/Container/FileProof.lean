import Verif.Container.ReaderProof
import Verif.Container.WriterProof
import Verif.Spec.Ocf
import Verif.Props.Wire
/-
Reading the blocks of a container file, whole or cut off.
-/
namespace Verif.Ocf
open Verif
open Verif.Props (wire)
set_option linter.unusedSimpArgs false
set_option linter.unusedVariables false

theorem readVarLoop_err (k : Bool) : ∀ (n : Nat) (v : BitVec 64) (s : Nat) (r : List Byte) (e : Err),
    readVarLoop (flatOps k) n v s r = .error e → e = .eof := by
  intro n
  induction n with
  | zero => intro v s r e h; cases h; rfl
  | succ n ih =>
    intro v s r e h
    rw [readVarLoop] at h
    cases r with
    | nil => rw [next_flat_nil] at h; cases h; rfl
    | cons b r =>
      rw [next_flat_cons] at h
      simp only at h
      split at h
      · cases h
      · exact ih _ _ _ _ h

/-- A number ends early: `io.EOF`. -/
theorem readLong_err {k : Bool} {r : List Byte} {e : Err} (h : readLong (flatOps k) r = .error e) : e = .eof := by
  unfold readLong readVar at h
  cases hx : readVarLoop (flatOps k) ((flatOps k).size r + 1) 0 0 r with
  | error e' =>
    rw [hx] at h; cases h
    exact readVarLoop_err _ _ _ _ _ _ hx
  | ok x => rw [hx] at h; cases h

theorem readLong_cut (k : Bool) (x : Int) (h : -(2 ^ 63) ≤ x) (h' : x < 2 ^ 63) (j : Nat) (hj : j < (encLong x).length) :
    readLong (flatOps k) ((encLong x).take j) = .error .eof := by
  have hr := readLong_encLong k x h h' []
  rw [List.append_nil] at hr
  obtain ⟨e, he⟩ := Props.truncated_error (noLook_readLong k) (encLong x) _ hr ((encLong x).take j) ((encLong x).drop j)
    (List.take_append_drop _ _).symm (by simp; omega)
  rw [he, readLong_err he]

/-- A block is read back. -/
theorem readBlock (sync : List Byte) (hs : sync.length = 16) (b : Nat × List Byte) (hn : b.1 < 2 ^ 63)
    (hd : b.2.length ≤ 2147483647) (rest : List Byte) :
    deserializeBlock (flatOps false) (Spec.Ocf.block sync b ++ rest) = .ok (⟨BitVec.ofNat 64 b.1, b.2, sync⟩, rest) := by
  unfold deserializeBlock Spec.Ocf.block Spec.Ocf.sized
  rw [List.append_assoc, List.append_assoc, readLong_encLong false _ (by omega) (by omega)]
  simp only [bindOk]
  rw [readBytes, readSized_enc _ _ _ _ hd]
  simp only [readFixed, show ¬ ((16 : Int) < 0) from by decide, if_false, flatOps]
  rw [flatReadFull_append' _ _ _ (by rw [hs]; rfl)]
  rw [BitVec.ofInt_natCast]

/-- The error for a block of which only `j` bytes are there. -/
def cutError (b : Nat × List Byte) (j : Nat) : Err :=
  if j ≤ (encLong b.1).length + (encLong b.2.length).length ∨
    j = (encLong b.1).length + (encLong b.2.length).length + b.2.length then .eof else .unexpectedEOF

theorem take_ne {l : List Byte} {m : Nat} (h : ¬ m = 0) (hl : 0 < l.length) : l.take m ≠ [] := by
  intro he
  have := congrArg List.length he
  simp at this
  rcases this with h' | h'
  · exact h h'
  · rw [h'] at hl; simp at hl

/-- A block that is not complete. -/
theorem cutBlock (sync : List Byte) (hs : sync.length = 16) (b : Nat × List Byte) (hn : b.1 < 2 ^ 63)
    (hd : b.2.length ≤ 2147483647) (j : Nat) (hj : j < (Spec.Ocf.block sync b).length) :
    deserializeBlock (flatOps false) ((Spec.Ocf.block sync b).take j) = .error (cutError b j) := by
  obtain ⟨n, d⟩ := b
  simp only at hn hd
  unfold deserializeBlock cutError
  simp only [Spec.Ocf.block, Spec.Ocf.sized, List.append_assoc, List.length_append] at hj ⊢
  by_cases h1 : j < (encLong n).length
  · rw [List.take_append_of_le_length (by omega), readLong_cut false _ (by omega) (by omega) j h1, if_pos (by omega)]
    rfl
  · rw [List.take_append, List.take_of_length_le (by omega), readLong_encLong false _ (by omega) (by omega)]
    simp only [bindOk, readBytes]
    by_cases h2 : j - (encLong n).length < (encLong d.length).length
    · rw [List.take_append_of_le_length (by omega)]
      unfold readSized
      rw [readLong_cut false _ (by omega) (by omega) _ h2, if_pos (by omega)]
      rfl
    · rw [List.take_append, List.take_of_length_le (by omega)]
      by_cases h3 : j - (encLong n).length - (encLong d.length).length < d.length
      · rw [List.take_append_of_le_length (by omega)]
        unfold readSized
        rw [readLong_encLong false _ (by omega) (by omega)]
        simp only [bindOk]
        rw [if_neg (by rw [bmod_id _ (by omega) (by omega)]; omega),
          if_neg (by intro h; have := congrArg BitVec.toInt h; rw [bmod_id _ (by omega) (by omega)] at this; rw [show (0 : BitVec 64).toInt = 0 from rfl] at this; omega)]
        have hl : (BitVec.ofInt 64 (d.length : Int)).toNat = d.length := by
          rw [BitVec.ofInt_natCast, BitVec.toNat_ofNat, Nat.mod_eq_of_lt (by omega)]
        simp only [flatOps, flatReadFull, hl]
        rw [if_neg (by simp; omega)]
        by_cases h4 : j - (encLong n).length - (encLong d.length).length = 0
        · rw [h4, List.take_zero, if_pos rfl, if_pos (.inl (by omega))]
        · rw [if_neg (take_ne h4 (by omega)), if_neg (by omega)]
      · rw [List.take_append, List.take_of_length_le (by omega), ← List.append_assoc, readSized_enc _ _ _ _ hd]
        simp only [readFixed, show ¬ ((16 : Int) < 0) from by decide, if_false, flatOps, flatReadFull]
        rw [if_neg (by simp; omega)]
        by_cases h4 : j - (encLong n).length - (encLong d.length).length - d.length = 0
        · rw [h4, List.take_zero, if_pos rfl, if_pos (.inr (by omega))]
        · rw [if_neg (take_ne h4 (by omega)), if_neg (by omega)]

/-- A block that is too large for the reader. -/
theorem largeBlock (sync : List Byte) (b : Nat × List Byte) (hn : b.1 < 2 ^ 63)
    (hd : 2147483647 < b.2.length) (hd' : b.2.length < 2 ^ 63) (rest : List Byte) :
    deserializeBlock (flatOps false) (Spec.Ocf.block sync b ++ rest) = .error .bytesRange := by
  unfold deserializeBlock Spec.Ocf.block Spec.Ocf.sized
  rw [List.append_assoc, List.append_assoc, List.append_assoc, readLong_encLong false _ (by omega) (by omega)]
  simp only [bindOk, readBytes, readSized]
  rw [readLong_encLong false _ (by omega) (by omega)]
  simp only [bindOk]
  rw [if_pos (.inr (by rw [bmod_id _ (by omega) (by omega)]; omega))]

/-! ### all blocks -/

/-- The reader accepts the block and gets `raw` out of it. -/
structure Opens (L : Libs) (codec : List Byte) (b : Nat × List Byte) (raw : List Byte) : Prop where
  count : b.1 < 2 ^ 63
  size : b.2.length ≤ 2147483647
  data : ∃ ps, openCodec L codec b.2 = .ok ⟨ps, .eof⟩ ∧ ps.flatten = raw

/-- Blocks one by one. -/
inductive OpensAll (L : Libs) (codec : List Byte) : List (Nat × List Byte) → List Byte → Prop
  | nil : OpensAll L codec [] []
  | cons {b raw bs raws} : Opens L codec b raw → OpensAll L codec bs raws → OpensAll L codec (b :: bs) (raw ++ raws)

theorem openBlock_opens {L : Libs} {codec sync : List Byte} (hs : sync.length = 16) {b raw} (h : Opens L codec b raw)
    (rest : List Byte) : ∃ ps, openBlock L (flatOps false) codec sync (Spec.Ocf.block sync b ++ rest) = .ok (⟨ps, .eof⟩, rest) ∧
      ps.flatten = raw := by
  obtain ⟨ps, h1, h2⟩ := h.data
  refine ⟨ps, ?_, h2⟩
  unfold openBlock
  rw [readBlock sync hs b h.count h.size]
  simp only [bindOk, openRaw, ne_eq, not_true_eq_false, if_false, h1]
  rfl

/-- Complete blocks are delivered whatever follows. -/
theorem upcoming_blocks {L : Libs} {codec sync : List Byte} (hs : sync.length = 16) {blocks raws}
    (h : OpensAll L codec blocks raws) : ∀ (tail : List Byte) (k : Nat),
    ((blocks.map (Spec.Ocf.block sync)).flatten ++ tail).length < k → ∃ k', tail.length < k' ∧
    (upcoming L (flatOps false) codec sync k ((blocks.map (Spec.Ocf.block sync)).flatten ++ tail)).1.flatten
      = raws ++ (upcoming L (flatOps false) codec sync k' tail).1.flatten ∧
    (upcoming L (flatOps false) codec sync k ((blocks.map (Spec.Ocf.block sync)).flatten ++ tail)).2
      = (upcoming L (flatOps false) codec sync k' tail).2 := by
  induction h with
  | nil => intro tail k hk; exact ⟨k, by simpa using hk, by simp, by simp⟩
  | @cons b raw bs raws h _ ih =>
    intro tail k hk
    simp only [List.map_cons, List.flatten_cons, List.append_assoc, List.length_append] at hk ⊢
    cases k with
    | zero => omega
    | succ k =>
      obtain ⟨ps, h1, h2⟩ := openBlock_opens hs h ((bs.map (Spec.Ocf.block sync)).flatten ++ tail)
      have hb : 17 ≤ (Spec.Ocf.block sync b).length := by
        have := deserializeBlock_shorter (readBlock sync hs b h.count h.size [])
        simpa using this
      obtain ⟨k', h3, h4, h5⟩ := ih tail k (by simp only [List.length_append]; omega)
      refine ⟨k', h3, ?_, ?_⟩
      · rw [upcoming, h1]
        simp only [if_true, List.flatten_append, h2, h4]
      · rw [upcoming, h1]
        simp only [if_true, h5]

end Verif.Ocf
