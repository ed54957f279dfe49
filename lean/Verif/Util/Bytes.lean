import Verif.Wire.Basic
import Verif.Spec.JsonText
/-
Byte strings in JSON, v10/util/bytes.go.
-/
namespace Verif
open Spec

/-- A lower-case hexadecimal digit, as `%x` prints it. -/
def lowerHex (n : Nat) : Char := if n < 10 then Char.ofNat (48 + n) else Char.ofNat (87 + n)

/-- `fmt.Fprintf(&builder, "\\u%04x", c)`, v10/util/bytes.go:14. -/
def escapeByte (b : Byte) : Str := ['\\', 'u', '0', '0', lowerHex (b.toNat / 16), lowerHex (b.toNat % 16)]

/-- `EncodeByteString`, v10/util/bytes.go:10-18. -/
def encodeByteString (bs : List Byte) : Str := '"' :: bs.flatMap escapeByte ++ ['"']

/-- `DecodeByteString`, v10/util/bytes.go:21-32: `byte(r)` of every code point. The string is valid
UTF-8, as `json.Unmarshal` always delivers it, so decoding its code points does not fail. -/
def decodeByteString (s : Str) : List Byte := s.map fun c => BitVec.ofNat 8 c.toNat

/-- `UnmarshalJSON` of a fixed, v10/generator/flat/templates/fixed.go:23-31, after the text has been
decoded: `copy` takes what fits, the rest of the array stays as it was. -/
def fixedFromString (old : List Byte) (s : Str) : List Byte :=
  (decodeByteString s).take old.length ++ old.drop (decodeByteString s).length

theorem hexDigit_lowerHex (n : Nat) (h : n < 16) : hexDigit (lowerHex n) = some n := by
  have : ∀ m : Fin 16, hexDigit (lowerHex m.1) = some m.1 := by decide
  exact this ⟨n, h⟩

theorem escapeByte_hex (b : Byte) : ∃ h, escapeByte b = '\\' :: 'u' :: h ∧ Hex4 h b.toNat := by
  refine ⟨_, rfl, ?_⟩
  have h1 := hexDigit_lowerHex (b.toNat / 16) (by omega)
  have h2 := hexDigit_lowerHex (b.toNat % 16) (by omega)
  have h0 : hexDigit '0' = some 0 := by decide
  have := Hex4.mk h0 h0 h1 h2
  have e : ((0 * 16 + 0) * 16 + b.toNat / 16) * 16 + b.toNat % 16 = b.toNat := by omega
  rwa [e] at this

theorem hexDigit_lt {c : Char} {n : Nat} (h : hexDigit c = some n) : n < 16 := by
  unfold hexDigit at h
  simp only [Char.le_def, UInt32.le_iff_toNat_le] at h
  split at h
  · rename_i hc; cases h
    have : c.toNat ≤ 57 := hc.2
    omega
  split at h
  · rename_i hc; cases h
    have : c.toNat ≤ 102 := hc.2
    omega
  split at h
  · rename_i hc; cases h
    have : c.toNat ≤ 70 := hc.2
    omega
  · cases h

theorem hex4_length {h : Str} {n} (hh : Hex4 h n) : h.length = 4 := by cases hh; rfl

theorem hex4_unique {h : Str} {n n'} (a : Hex4 h n) (b : Hex4 h n') : n = n' := by
  cases a with
  | mk a1 a2 a3 a4 =>
    cases b with
    | mk b1 b2 b3 b4 =>
      rw [a1] at b1; rw [a2] at b2; rw [a3] at b3; rw [a4] at b4
      cases b1; cases b2; cases b3; cases b4; rfl

theorem append_eq {α} {a b c d : List α} (h : a ++ b = c ++ d) (hl : a.length = c.length) : a = c ∧ b = d :=
  List.append_inj h hl

/-- A text between quotes denotes one string. -/
theorem jsonChars_unique {l s} (h : JsonChars l s) : ∀ {s'}, JsonChars l s' → s = s' := by
  induction h with
  | nil => intro s' h'; cases h'; rfl
  | plain h1 h2 h3 _ ih =>
    intro s' h'
    cases h' with
    | plain _ _ _ h4 => rw [ih h4]
    | short => exact absurd rfl h3
    | unicode => exact absurd rfl h3
    | pair => exact absurd rfl h3
  | @short e c l s h1 _ ih =>
    intro s' h'
    generalize hl : '\\' :: e :: l = L at h'
    cases h' with
    | nil => cases hl
    | plain _ _ h3 _ => cases hl; exact absurd rfl h3
    | short h2 h4 =>
      cases hl
      rw [ih h4]
      congr 1
      simp only [shortEscapes, List.mem_cons, List.not_mem_nil, Prod.mk.injEq, or_false] at h1 h2
      rcases h1 with ⟨rfl, rfl⟩ | ⟨rfl, rfl⟩ | ⟨rfl, rfl⟩ | ⟨rfl, rfl⟩ | ⟨rfl, rfl⟩ | ⟨rfl, rfl⟩ | ⟨rfl, rfl⟩ | ⟨rfl, rfl⟩ <;>
        revert h2 <;> simp <;> exact fun h => h.symm
    | unicode => cases hl; exact absurd h1 (by simp [shortEscapes])
    | pair => cases hl; exact absurd h1 (by simp [shortEscapes])
  | @unicode h n l s h1 h2 _ ih =>
    intro s' h'
    generalize hl : '\\' :: 'u' :: (h ++ l) = L at h'
    cases h' with
    | nil => cases hl
    | plain _ _ h3 _ => cases hl; exact absurd rfl h3
    | short h3 => cases hl; exact absurd h3 (by simp [shortEscapes])
    | unicode h3 h4 h5 =>
      simp only [List.cons.injEq, true_and] at hl
      obtain ⟨rfl, rfl⟩ := append_eq hl (by rw [hex4_length h1, hex4_length h3])
      rw [hex4_unique h1 h3, ih h5]
    | pair h3 h4 h5 h6 h7 h8 h9 =>
      simp only [List.cons.injEq, true_and] at hl
      obtain ⟨rfl, rfl⟩ := append_eq hl (by rw [hex4_length h1, hex4_length h3])
      rw [hex4_unique h1 h3] at h2
      exfalso
      rcases h2 with h2 | h2 <;> omega
  | @pair h h' n n' l s h1 h2 h3 h4 h5 h6 _ ih =>
    intro s' hh
    generalize hl : '\\' :: 'u' :: (h ++ '\\' :: 'u' :: (h' ++ l)) = L at hh
    cases hh with
    | nil => cases hl
    | plain _ _ h3 _ => cases hl; exact absurd rfl h3
    | short h3 => cases hl; exact absurd h3 (by simp [shortEscapes])
    | unicode h7 h8 h9 =>
      simp only [List.cons.injEq, true_and] at hl
      obtain ⟨rfl, rfl⟩ := append_eq hl (by rw [hex4_length h1, hex4_length h7])
      rw [← hex4_unique h1 h7] at h8
      exfalso
      rcases h8 with h8 | h8 <;> omega
    | pair h7 h8 _ _ _ _ h9 =>
      simp only [List.cons.injEq, true_and] at hl
      obtain ⟨rfl, hl2⟩ := append_eq hl (by rw [hex4_length h1, hex4_length h7])
      obtain ⟨rfl, rfl⟩ := append_eq (List.cons.inj (List.cons.inj hl2).2).2 (by rw [hex4_length h2, hex4_length h8])
      rw [hex4_unique h1 h7, hex4_unique h2 h8, ih h9]

theorem jsonString_unique {lit s s'} (h : JsonString lit s) (h' : JsonString lit s') : s = s' := by
  obtain ⟨l, rfl, h1⟩ := h
  obtain ⟨l', e, h2⟩ := h'
  simp only [List.cons_append, List.cons.injEq, true_and, List.append_cancel_right_eq] at e
  subst e
  exact jsonChars_unique h1 h2

end Verif
