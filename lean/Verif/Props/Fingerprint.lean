import Verif.Canonical.Crc
/-
Properties C50, C51: schema fingerprints, v10/schema/canonical/crc.go.
Specification: `Verif/Spec/Crc.lean`.
-/
namespace Verif.Props
open Verif

/-- C50: the table-driven computation gives the CRC-64-AVRO of the data, least significant byte
first. -/
theorem fingerprint_is_crc64 (data : List Byte) :
    Crc.avroCRC64Fingerprint data = (List.range 8).map fun i => (Spec.crc64 data >>> (8 * i)).setWidth 8 := by
  unfold Crc.avroCRC64Fingerprint
  rw [Crc.fold_eq]; rfl

/-- C50: a fingerprint has eight bytes. -/
theorem fingerprint_length (data : List Byte) : (Crc.avroCRC64Fingerprint data).length = 8 := by
  rw [fingerprint_is_crc64]; simp

-- `"int"`, the value of v10/schema/canonical/crc_test.go:17
example : Crc.avroCRC64Fingerprint [0x22, 0x69, 0x6e, 0x74, 0x22] =
    [0x8f, 0x5c, 0x39, 0x3f, 0x1a, 0xd5, 0x75, 0x72] := by decide +kernel
-- `"long"`, crc_test.go:18
example : Spec.crc64 [0x22, 0x6c, 0x6f, 0x6e, 0x67, 0x22] = 0xd054e14493f41db7#64 := by decide +kernel

/-- C51: sequences that differ only inside a window of at most eight bytes have different
fingerprints, whatever comes before and after the window. -/
theorem local_change_detected (before a b after : List Byte) (hlen : a.length = b.length) (h8 : a.length ≤ 8)
    (hne : a ≠ b) :
    Crc.avroCRC64Fingerprint (before ++ a ++ after) ≠ Crc.avroCRC64Fingerprint (before ++ b ++ after) := by
  intro h
  have h := Crc.le64_inj _ _ h
  simp only [List.foldl_append] at h
  have h := Crc.fold_inj _ _ _ h
  rw [Crc.fold_pack a h8, Crc.fold_pack b (by omega), hlen] at h
  have h := Crc.steps_inj _ _ _ h
  apply hne
  apply Crc.pack_inj a b hlen h8
  generalize List.foldl Crc.fpByte Crc.EMPTY before = s at h
  have : ∀ x y : BitVec 64, s ^^^ x = s ^^^ y → x = y := by
    intro x y hxy
    have := congrArg (s ^^^ ·) hxy
    simpa [← BitVec.xor_assoc] using this
  exact this _ _ h

/-- The same for two sequences given as a whole: they agree outside positions `i`, ..., `i+7`. -/
theorem local_change_detected_at (x y : List Byte) (i : Nat) (hlen : x.length = y.length) (hne : x ≠ y)
    (hout : ∀ j, j < i ∨ i + 8 ≤ j → x[j]? = y[j]?) :
    Crc.avroCRC64Fingerprint x ≠ Crc.avroCRC64Fingerprint y := by
  have split : ∀ l : List Byte, l = l.take i ++ (l.drop i).take 8 ++ (l.drop i).drop 8 := by
    intro l; rw [List.append_assoc, List.take_append_drop, List.take_append_drop]
  have h1 : x.take i = y.take i := by
    apply List.ext_getElem?
    intro j
    rw [List.getElem?_take, List.getElem?_take]
    split
    · exact hout j (by omega)
    · rfl
  have h3 : (x.drop i).drop 8 = (y.drop i).drop 8 := by
    apply List.ext_getElem?
    intro j
    rw [List.drop_drop, List.drop_drop, List.getElem?_drop, List.getElem?_drop]
    exact hout _ (by omega)
  rw [split x, split y, h1, h3]
  apply local_change_detected
  · simp [hlen]
  · simp; omega
  · intro h2
    apply hne
    rw [split x, split y, h1, h2, h3]

-- one changed letter inside a schema
example : Crc.avroCRC64Fingerprint [0x22, 0x69, 0x6e, 0x74, 0x22] ≠
    Crc.avroCRC64Fingerprint [0x22, 0x69, 0x6f, 0x74, 0x22] :=
  local_change_detected [0x22, 0x69] [0x6e] [0x6f] [0x74, 0x22] rfl (by decide) (by decide)

/-- The window of C51 cannot be made larger: nine bytes can be changed without changing the
fingerprint. -/
theorem nine_bytes_undetected : ∃ a b : List Byte, a.length = 9 ∧ b.length = 9 ∧ a ≠ b ∧
    Crc.avroCRC64Fingerprint a = Crc.avroCRC64Fingerprint b :=
  ⟨List.replicate 9 0, 1 :: Crc.le64 (Crc.fpEntry 1), by decide +kernel, by decide +kernel,
    by decide +kernel, by decide +kernel⟩

end Verif.Props
