import Verif.Spec.GoText
/-
Decimal constants in Go source: which number they are.
-/
namespace Verif.Spec.Go
open Verif

/-- `m * 10 ^ e` as a fraction. -/
def decimal (m : Nat) (e : Int) : Nat × Nat := if 0 ≤ e then (m * 10 ^ e.toNat, 1) else (m, 10 ^ (-e).toNat)

/-- The number with these digits. -/
def digitsValue (s : Str) : Nat := Nat.ofDigitChars 10 s 0

/-- What comes after the digits of a constant: nothing, or an exponent (`e`, a sign, digits). -/
def exponent : Str → Option Int
  | [] => some 0
  | 'e' :: '+' :: s => if s ≠ [] ∧ s.all Char.isDigit then some (digitsValue s) else none
  | 'e' :: '-' :: s => if s ≠ [] ∧ s.all Char.isDigit then some (-(digitsValue s : Int)) else none
  | _ => none

/-- A decimal constant without a sign: digits, perhaps a point and digits, perhaps an exponent. Digits alone must not begin with 0 if
there are several: such a constant is octal. -/
def unsigned (s : Str) : Option (Nat × Nat) :=
  let i := s.takeWhile Char.isDigit
  if i = [] then none
  else match s.dropWhile Char.isDigit with
    | [] => if i.head? = some '0' ∧ 1 < i.length then none else some (decimal (digitsValue i) 0)
    | '.' :: r => (exponent (r.dropWhile Char.isDigit)).map fun e =>
        decimal (digitsValue (i ++ r.takeWhile Char.isDigit)) (e - (r.takeWhile Char.isDigit).length)
    | r => (exponent r).map fun e => decimal (digitsValue i) e

/-- A decimal constant, perhaps with a minus sign before it, as a fraction. -/
def constantValue : Str → Option (Int × Nat)
  | '-' :: s => (unsigned s).map fun x => (-(x.1 : Int), x.2)
  | s => (unsigned s).map fun x => ((x.1 : Int), x.2)

/-- The characters of a token, if it is no string. -/
def Tok.chars : Tok → Str
  | .word s => s
  | .sign c => [c]
  | .text _ => []

/-- The number that tokens stand for. (A Go lexer makes one token of a constant, the one of Spec/GoText several.) -/
def readNumber (ts : List Tok) : Option (Int × Nat) := constantValue (ts.flatMap Tok.chars)

example : constantValue "-7".toList = some (-7, 1) := by decide +kernel
example : constantValue "0.25".toList = some (25, 100) := by decide +kernel
example : constantValue "1.5e+06".toList = some (1500000, 1) := by decide +kernel
example : constantValue "1e-05".toList = some (1, 100000) := by decide +kernel
example : constantValue "010".toList = none := by decide +kernel
example : constantValue "NaN".toList = none := by decide +kernel

/-- Equal fractions. -/
def Same (x y : Int × Nat) : Prop := 0 < x.2 ∧ 0 < y.2 ∧ x.1 * y.2 = y.1 * x.2

end Verif.Spec.Go
