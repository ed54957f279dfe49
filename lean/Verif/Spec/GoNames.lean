import Verif.Schema.Names
/-
What a legal Avro name is, and what Go asks of the names of an exported declaration.
Avro: "The name portion of a fullname, record field names, and enum symbols must start with
[A-Za-z_] and subsequently contain only [A-Za-z0-9_]."
Go: an identifier is exported when its first character is an upper case letter.
-/
namespace Verif.Spec
open Verif

def UpperLetter (c : Char) : Prop := 'A' ≤ c ∧ c ≤ 'Z'
def LowerLetter (c : Char) : Prop := 'a' ≤ c ∧ c ≤ 'z'
def Letter (c : Char) : Prop := UpperLetter c ∨ LowerLetter c
def Digit (c : Char) : Prop := '0' ≤ c ∧ c ≤ '9'
/-- A character of a name. -/
def NameChar (c : Char) : Prop := Letter c ∨ Digit c ∨ c = '_'

instance (c : Char) : Decidable (UpperLetter c) := inferInstanceAs (Decidable (_ ∧ _))
instance (c : Char) : Decidable (LowerLetter c) := inferInstanceAs (Decidable (_ ∧ _))
instance (c : Char) : Decidable (Letter c) := inferInstanceAs (Decidable (_ ∨ _))
instance (c : Char) : Decidable (Digit c) := inferInstanceAs (Decidable (_ ∧ _))
instance (c : Char) : Decidable (NameChar c) := inferInstanceAs (Decidable (_ ∨ _ ∨ _))

/-- A legal Avro name. -/
def LegalName : Str → Prop
  | [] => False
  | c :: cs => (Letter c ∨ c = '_') ∧ ∀ x ∈ cs, NameChar x

/-- The first character that is not an underscore is a letter. -/
def LetterFirst (s : Str) : Prop := ∃ u c cs, s = u ++ c :: cs ∧ (∀ x ∈ u, x = '_') ∧ Letter c

/-- The name starts with a letter and does not end in an underscore. -/
def Proper (s : Str) : Prop := LegalName s ∧ s.head? ≠ some '_' ∧ s.getLast? ≠ some '_'

/-- Legal names separated by dots, each with a letter before any digit. -/
inductive Dotted : Str → Prop
  | one : LegalName p → LetterFirst p → Dotted p
  | cons : LegalName p → LetterFirst p → Dotted s → Dotted (p ++ '.' :: s)

/-- An exported Go identifier. -/
def Exported : Str → Prop
  | [] => False
  | c :: cs => UpperLetter c ∧ ∀ x ∈ cs, NameChar x

instance : (s : Str) → Decidable (LegalName s)
  | [] => inferInstanceAs (Decidable False)
  | _ :: _ => inferInstanceAs (Decidable (_ ∧ _))
instance : (s : Str) → Decidable (Exported s)
  | [] => inferInstanceAs (Decidable False)
  | _ :: _ => inferInstanceAs (Decidable (_ ∧ _))
instance (s : Str) : Decidable (Proper s) := inferInstanceAs (Decidable (_ ∧ _ ∧ _))

/-- The same letter, or the same letter in the other case. -/
def SameLetter (c d : Char) : Prop :=
  c = d ∨ (UpperLetter c ∧ d.toNat = c.toNat + 32) ∨ (UpperLetter d ∧ c.toNat = d.toNat + 32)

/-- The same word but for the case of the first letter. -/
def SameWord (a b : Str) : Prop := ∃ c d cs, a = c :: cs ∧ b = d :: cs ∧ SameLetter c d

/-- An upper camel case name: letters and digits, an upper case letter first, and a lower case letter
before or after every later upper case letter. The flag says that the character before is a lower case
letter. -/
def CamelFrom : Bool → Str → Prop
  | _, [] => True
  | low, c :: cs => (Letter c ∨ Digit c) ∧ (UpperLetter c → low = true ∨ cs.head?.elim False LowerLetter) ∧
    CamelFrom (decide (LowerLetter c)) cs
def Camel : Str → Prop
  | [] => False
  | c :: cs => UpperLetter c ∧ CamelFrom false cs

instance : (b : Bool) → (s : Str) → Decidable (CamelFrom b s)
  | _, [] => inferInstanceAs (Decidable True)
  | _, c :: cs =>
    have := instDecidableCamelFrom (decide (LowerLetter c)) cs
    have : Decidable (cs.head?.elim False LowerLetter) := match cs with
      | [] => inferInstanceAs (Decidable False)
      | d :: _ => inferInstanceAs (Decidable (LowerLetter d))
    inferInstanceAs (Decidable (_ ∧ _ ∧ _))
instance : (s : Str) → Decidable (Camel s)
  | [] => inferInstanceAs (Decidable False)
  | _ :: _ => inferInstanceAs (Decidable (_ ∧ _))

/-- A name the generator may also give to an array, a map, a union or the bytes type: `Bytes`, or
`Array`, `Map` or `Union` alone or before a capital letter. -/
def Reserved (s : Str) : Prop :=
  s = "Bytes".toList ∨ ∃ w ∈ ["Array".toList, "Map".toList, "Union".toList],
    s = w ∨ ∃ c r, UpperLetter c ∧ s = w ++ c :: r

end Verif.Spec
