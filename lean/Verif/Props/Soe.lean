import Verif.Soe.Soe
import Verif.Props.Decode
/-
Properties C48, C49: single-object encoding, v10/soe/soe.go.

* `Soe.writeRecord r`: what `WriteRecord` writes for the record `r`, and whether it returns nil.
* `Soe.readHeader s rd`: `ReadHeader` on the reader `rd`, whose `Read` is `s.read`.
* `s.Delivers view`: `Read` gives the next bytes of `view rd`, as many as it likes.
-/
namespace Verif.Props
open Verif

/-- C48: what is written is the marker C3 01, the fingerprint and the record's encoding. -/
theorem soe_layout (r : Soe.Rec) :
    (Soe.writeRecord r).1.bytes = [0xC3, 0x01] ++ r.fingerprint ++ r.ser.1.bytes ∧
    (Soe.writeRecord r).2 = r.ser.2 := Soe.writeRecord_bytes r

/-- C48: `ReadHeader` returns the fingerprint that `WriteRecord` wrote and leaves the record's
encoding, on a reader that gives as many bytes as it is asked for. -/
theorem soe_roundtrip {R : Type} {s : Soe.Src R} {view : R → List Byte} (hs : s.Delivers view) (hf : s.Full view)
    (r : Soe.Rec) (h8 : r.fingerprint.length = 8) {rd : R} {rest : List Byte}
    (hin : view rd = (Soe.writeRecord r).1.bytes ++ rest) :
    ∃ rd', Soe.readHeader s rd = .ok (r.fingerprint, rd') ∧ view rd' = r.ser.1.bytes ++ rest :=
  Soe.readHeader_full hs hf h8 (by rw [hin, (Soe.writeRecord_bytes r).1, List.append_assoc])

/-- C48: the record itself comes back when what `ReadHeader` leaves is deserialized. -/
theorem soe_value {s : Schema} (hs : WellFormed s) {lim : Nat} (hl : lim < 2 ^ 63) (bw k : Bool) (mo : MapOrder)
    (dv : Field → Val) (ord : Orders) {v : Val} (hv : HasTy s.env lim v s.root) (hn : v ≠ .nil)
    (fp : List Byte) (h8 : fp.length = 8) (rest : List Byte) :
    ∃ left, Soe.readHeader Soe.whole
        ((Soe.writeRecord ⟨fp, serialize s.env bw mo v s.root⟩).1.bytes ++ rest) = .ok (fp, left) ∧
      Deserializes ⟨flatOps k, lim, dv, ord⟩ s s left (.value v rest) := by
  obtain ⟨left, h1, h2⟩ := soe_roundtrip Soe.whole_delivers Soe.whole_full
    ⟨fp, serialize s.env bw mo v s.root⟩ h8 (rest := rest) rfl
  refine ⟨left, h1, ?_⟩
  obtain ⟨_, rd', h3, h4⟩ := roundtrip_partial (σ := ⟨flatOps k, lim, dv, ord⟩) hs (flatOps_delivers k) hl bw mo hv hn
    (rd := left) (rest := rest) h2
  have h4 : rd' = rest := h4
  rw [← h4]; exact h3

example : ∃ left, Soe.readHeader Soe.whole
      ((Soe.writeRecord ⟨[1, 2, 3, 4, 5, 6, 7, 8], serialize sample.env true .rev sampleVal sample.root⟩).1.bytes ++ [9])
        = .ok ([1, 2, 3, 4, 5, 6, 7, 8], left) ∧
    Deserializes ⟨flatOps true, 1000, fun _ => .null, Orders.id⟩ sample sample left (.value sampleVal [9]) :=
  soe_value sample_wellFormed (by decide) true true .rev _ _ sampleVal_hasTy (by simp [sampleVal]) _ rfl [9]

/-- C48: input that does not start with C3 01 is refused, whatever the reader. -/
theorem soe_marker_checked {R : Type} {s : Soe.Src R} {view : R → List Byte} (hs : s.Delivers view) {rd : R}
    (h : ¬ [0xC3, 0x01] <+: view rd) : ∃ e, Soe.readHeader s rd = .error e := by
  cases hr : Soe.readHeader s rd with
  | error e => exact ⟨e, rfl⟩
  | ok x =>
    obtain ⟨_, h2⟩ := Soe.readHeader_ok hs (fp := x.1) (r' := x.2) hr
    exact absurd ⟨x.1 ++ view x.2, by rw [h2, List.append_assoc]; rfl⟩ h

/-- C48: and so is input that ends inside the header. -/
theorem soe_short_refused {R : Type} {s : Soe.Src R} {view : R → List Byte} (hs : s.Delivers view) {rd : R}
    (h : (view rd).length < 10) : ∃ e, Soe.readHeader s rd = .error e := by
  cases hr : Soe.readHeader s rd with
  | error e => exact ⟨e, rfl⟩
  | ok x =>
    obtain ⟨h1, h2⟩ := Soe.readHeader_ok hs (fp := x.1) (r' := x.2) hr
    rw [h2] at h
    simp [Soe.headerV1, h1] at h
    omega

example : ∃ e, Soe.readHeader Soe.pieces [[0xC3, 0x02], [0, 0, 0, 0, 0, 0, 0, 0], [5]] = .error e :=
  soe_marker_checked Soe.pieces_delivers (by decide)

/-- C49, what holds: however the reader splits the data, `ReadHeader` returns an error, or the
eight bytes after the marker, leaving exactly what follows. -/
theorem soe_split_partial {R : Type} {s : Soe.Src R} {view : R → List Byte} (hs : s.Delivers view) {rd : R}
    {fp rest : List Byte} (h8 : fp.length = 8) (hin : view rd = [0xC3, 0x01] ++ fp ++ rest) :
    (∃ e, Soe.readHeader s rd = .error e) ∨ ∃ rd', Soe.readHeader s rd = .ok (fp, rd') ∧ view rd' = rest := by
  cases hr : Soe.readHeader s rd with
  | error e => exact .inl ⟨e, rfl⟩
  | ok x =>
    obtain ⟨h1, h2⟩ := Soe.readHeader_ok hs (fp := x.1) (r' := x.2) hr
    rw [hin, List.append_assoc, List.append_assoc] at h2
    have h3 := List.append_inj (List.append_cancel_left h2) (by rw [h1, h8])
    refine .inr ⟨x.2, ?_, h3.2.symm⟩
    rw [h3.1]

/-- C49 is false of the code: a header that arrives in two pieces is refused, wherever it is
cut, although the same bytes in one piece are accepted. -/
theorem soe_split_header_refused (fp rest : List Byte) (h8 : fp.length = 8) (n : Nat) (h0 : 0 < n) (h10 : n < 10)
    (h2 : n ≠ 2) :
    (∃ e, Soe.readHeader Soe.pieces
      [([0xC3, 0x01] ++ fp ++ rest).take n, ([0xC3, 0x01] ++ fp ++ rest).drop n] = .error e) ∧
    ∃ rd', Soe.readHeader Soe.pieces [[0xC3, 0x01] ++ fp ++ rest] = .ok (fp, rd') := by
  match fp, h8 with
  | [a, b, c, d, e, f, g, h], _ =>
    constructor
    · match n, h0, h10, h2 with
      | 1, _, _, _ => exact ⟨.headerInvalid, by simp [Soe.readHeader, Soe.pieces, chunkRead, Soe.filled, Soe.headerV1]⟩
      | 3, _, _, _ | 4, _, _, _ | 5, _, _, _ | 6, _, _, _ | 7, _, _, _ | 8, _, _, _ | 9, _, _, _ =>
        exact ⟨.notRead, by simp [Soe.readHeader, Soe.pieces, chunkRead, Soe.filled, Soe.headerV1]⟩
    · by_cases hr : rest = []
      · subst hr
        exact ⟨[], by simp [Soe.readHeader, Soe.pieces, chunkRead, Soe.filled, Soe.headerV1]⟩
      · cases rest with
        | nil => exact absurd rfl hr
        | cons x xs =>
          exact ⟨[x :: xs], by simp [Soe.readHeader, Soe.pieces, chunkRead, Soe.filled, Soe.headerV1]⟩

/-- C49 is false of the code in another way: a reader that reports the end of the data together
with the last bytes. A record without fields has an empty encoding, and then these are the
bytes of the header. -/
theorem soe_eager_reader_refused (fp : List Byte) (h8 : fp.length = 8) :
    Soe.readHeader Soe.eager ([0xC3, 0x01] ++ fp) = .error .notRead := by
  match fp, h8 with
  | [a, b, c, d, e, f, g, h], _ => simp [Soe.readHeader, Soe.eager, Soe.filled, Soe.headerV1]

end Verif.Props
