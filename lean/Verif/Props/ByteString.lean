import Verif.Util.Bytes
/-
C57: byte strings survive JSON.
-/
namespace Verif.Props
open Verif Spec

/-- What `EncodeByteString` returns is a JSON string, and whatever string a JSON reader makes of it,
`DecodeByteString` of that string is the bytes. -/
theorem byte_string_roundtrip (bs : List Byte) :
    (∃ s, JsonString (encodeByteString bs) s) ∧
      ∀ s, JsonString (encodeByteString bs) s → decodeByteString s = bs := by
  have key : ∀ bs : List Byte, JsonChars (bs.flatMap escapeByte) (bs.map fun b => Char.ofNat b.toNat) := by
    intro bs
    induction bs with
    | nil => exact .nil
    | cons b bs ih =>
      obtain ⟨h, e, hh⟩ := escapeByte_hex b
      simp only [List.flatMap_cons, List.map_cons, e, List.cons_append]
      exact .unicode hh (.inl (by omega)) ih
  have hdec : decodeByteString (bs.map fun b => Char.ofNat b.toNat) = bs := by
    unfold decodeByteString
    rw [List.map_map]
    conv => rhs; rw [← List.map_id bs]
    apply List.map_congr_left
    intro b _
    have hv : b.toNat.isValidChar := .inl (by omega)
    simp only [Function.comp, id]
    rw [Char.ofNat, dif_pos hv]
    apply BitVec.eq_of_toNat_eq
    simp [Char.toNat, Char.ofNatAux]
  refine ⟨⟨_, _, rfl, key bs⟩, fun s hs => ?_⟩
  rw [← jsonString_unique ⟨_, rfl, key bs⟩ hs, hdec]

/-- Different bytes have different texts. -/
theorem byte_string_injective (bs bs' : List Byte) (h : encodeByteString bs = encodeByteString bs') : bs = bs' := by
  obtain ⟨⟨s, hs⟩, h1⟩ := byte_string_roundtrip bs
  rw [← h1 s hs, (byte_string_roundtrip bs').2 s (h ▸ hs)]

/-- One byte per code point. -/
theorem decoded_length (s : Str) : (decodeByteString s).length = s.length := by
  simp [decodeByteString]

/-- Strings with code points up to 255, and only those, are determined by their bytes: for other
strings `DecodeByteString` keeps the low eight bits of each code point. -/
theorem decoded_faithful (s : Str) (h : ∀ c ∈ s, c.toNat < 256) :
    (decodeByteString s).map (fun b => Char.ofNat b.toNat) = s := by
  unfold decodeByteString
  rw [List.map_map]
  conv => rhs; rw [← List.map_id s]
  apply List.map_congr_left
  intro c hc
  have := h c hc
  simp only [Function.comp, id, BitVec.toNat_ofNat]
  rw [Nat.mod_eq_of_lt (by omega), Char.ofNat_toNat]

theorem large_code_points_lost : decodeByteString [Char.ofNat 0x141] = decodeByteString ['A'] := by decide

/-- A fixed written as JSON and read again, into whatever it was read, is the same. -/
theorem fixed_json_roundtrip (bs old : List Byte) (h : old.length = bs.length) (s : Str)
    (hs : JsonString (encodeByteString bs) s) : fixedFromString old s = bs := by
  unfold fixedFromString
  rw [(byte_string_roundtrip bs).2 s hs, h, List.take_length, ← h, List.drop_length, List.append_nil]

/-- A string of the wrong length is accepted for a fixed: what is missing stays as it was, what is
too much is dropped. -/
theorem fixed_json_length_not_checked :
    fixedFromString [1, 2, 3] "A".toList = [65, 2, 3] ∧ fixedFromString [1] "AB".toList = [65] := by decide

example : encodeByteString [0, 34, 255] = "\"\\u0000\\u0022\\u00ff\"".toList := by decide

end Verif.Props
