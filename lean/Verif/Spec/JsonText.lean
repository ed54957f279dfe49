import Verif.Wire.Basic
/-
JSON string literals, RFC 8259, section 7.
-/
namespace Verif.Spec
open Verif

/-- The value of a hexadecimal digit. -/
def hexDigit (c : Char) : Option Nat :=
  if '0' ≤ c ∧ c ≤ '9' then some (c.toNat - 48)
  else if 'a' ≤ c ∧ c ≤ 'f' then some (c.toNat - 87)
  else if 'A' ≤ c ∧ c ≤ 'F' then some (c.toNat - 55)
  else none

/-- Four hexadecimal digits. -/
inductive Hex4 : Str → Nat → Prop
  | mk {a b c d : Char} {x y z w : Nat} : hexDigit a = some x → hexDigit b = some y → hexDigit c = some z →
      hexDigit d = some w → Hex4 [a, b, c, d] (((x * 16 + y) * 16 + z) * 16 + w)

/-- The escapes of two characters. -/
def shortEscapes : List (Char × Char) :=
  [('"', '"'), ('\\', '\\'), ('/', '/'), ('b', Char.ofNat 8), ('f', Char.ofNat 12), ('n', '\n'),
    ('r', '\r'), ('t', '\t')]

/-- What stands between the quotes, and the characters it denotes. -/
inductive JsonChars : Str → Str → Prop
  | nil : JsonChars [] []
  | plain {c : Char} {l s} : 0x20 ≤ c.toNat → c ≠ '"' → c ≠ '\\' → JsonChars l s →
      JsonChars (c :: l) (c :: s)
  | short {e c : Char} {l s} : (e, c) ∈ shortEscapes → JsonChars l s →
      JsonChars ('\\' :: e :: l) (c :: s)
  | unicode {h : Str} {n : Nat} {l s} : Hex4 h n → n.isValidChar → JsonChars l s →
      JsonChars ('\\' :: 'u' :: (h ++ l)) (Char.ofNat n :: s)
  | pair {h h' : Str} {n n' : Nat} {l s} : Hex4 h n → Hex4 h' n' → 0xd800 ≤ n → n ≤ 0xdbff →
      0xdc00 ≤ n' → n' ≤ 0xdfff → JsonChars l s →
      JsonChars ('\\' :: 'u' :: (h ++ '\\' :: 'u' :: (h' ++ l)))
        (Char.ofNat (0x10000 + (n - 0xd800) * 0x400 + (n' - 0xdc00)) :: s)

/-- A JSON string literal and the string it denotes. -/
def JsonString (lit s : Str) : Prop := ∃ l, lit = '"' :: l ++ ['"'] ∧ JsonChars l s

end Verif.Spec
