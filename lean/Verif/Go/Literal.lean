import Verif.Spec.Number
/-
Numbers written into Go source with `fmt`'s `%v` and read back by the Go compiler:
v10/schema/{int,long,float,double}.go, `DefaultValue`.

`%v` of a `float64` prints the decimal with the fewest digits that reads back as the same
`float64` (strconv.FormatFloat with precision -1); a Go constant is exact, and is rounded when
it is assigned to a float.
-/
namespace Verif

/-- Exponent and fraction bits of the float nearest to `a / d`, ties to even, for a format of `p`
fraction bits whose numbers are multiples of `1 / 2 ^ scale`: Go's rounding of a constant. -/
def roundTo (F : Fmt) (a d : Nat) : Nat :=
  let x := a * 2 ^ F.scale
  let s := (x / d).log2 - F.p
  let u := d * 2 ^ s
  let q := x / u
  let r := x % u
  s * 2 ^ F.p + (if u < 2 * r ∨ (2 * r = u ∧ q % 2 = 1) then q + 1 else q)

/-- Exponent and fraction bits of infinity. -/
def Fmt.top (F : Fmt) : Nat := (2 ^ F.k - 1) * 2 ^ F.p

/-- A constant `a / d` assigned to a float variable; `none`: it overflows, which the compiler
refuses. A constant has no negative zero. -/
def constFloat (F : Fmt) (a : Int) (d : Nat) : Option (BitVec F.width) :=
  let t := roundTo F a.natAbs d
  if F.top ≤ t then none
  else some (BitVec.ofNat F.width (t + if a < 0 ∧ t ≠ 0 then 2 ^ (F.k + F.p) else 0))

/-- The integer nearest to `a / d`. -/
def nearestNat (a d : Nat) : Nat := (2 * a + d) / (2 * d)

/-- The integers next to `a / d`, the nearest first. -/
def nextTo (a d : Nat) : List Nat := [nearestNat a d, a / d, a / d + 1]

/-- `a / d` to the digit that counts `10 ^ k`, for `k` from where `10 ^ k` is greater than `a / d` down to 0,
and then `k = -1, ..., -1100`: decimals with more and more digits. -/
def decimals (a d : Nat) : List (Nat × Nat) :=
  ((List.range ((a / d).log2 / 3 + 2)).reverse.flatMap fun k => (nextTo a (d * 10 ^ k)).map fun m => (m * 10 ^ k, 1)) ++
  ((List.range 1100).flatMap fun k => (nextTo (a * 10 ^ (k + 1)) d).map fun m => (m, 10 ^ (k + 1)))

/-- The shortest decimal that reads back as the float (of format `F`) nearest to `a / d`. If no
decimal of the list does, the number itself (17 digits always do, so that does not happen). -/
def shortest (F : Fmt) (a d : Nat) : Nat × Nat :=
  ((decimals a d).find? fun c => roundTo F c.1 c.2 = roundTo F a d).getD (a, d)

/-- What `%v` prints for a number. -/
def literal (a : Int) (d : Nat) : Int × Nat :=
  let c := shortest double a.natAbs d
  (if a < 0 then -(c.1 : Int) else c.1, c.2)

/-- A constant `a / d` assigned to an integer variable; `none`: it is not an integer of the range,
which the compiler refuses. -/
def constInt (w : Nat) (a : Int) (d : Nat) : Option (BitVec w) :=
  if a % d = 0 ∧ -(2 ^ (w - 1) : Int) ≤ a / d ∧ a / d < 2 ^ (w - 1) then some (BitVec.ofInt w (a / d)) else none

/-- 0.1 is printed as `0.1` -/
example : literal (double.scaled 0x3FB999999999999A) (2 ^ 1074) = (1, 10) := by decide +kernel
/-- 2^56 is printed as `7.205759403792794e+16` -/
example : literal (2 ^ 56) 1 = (72057594037927940, 1) := by decide +kernel
example : literal (-1000000) 1 = (-1000000, 1) := by decide +kernel
/-- the least positive double -/
example : literal 1 (2 ^ 1074) = (5, 10 ^ 324) := by decide +kernel
/-- 0.1 as a float -/
example : (constFloat single 1 10).map BitVec.toNat = some 0x3DCCCCCD := by decide +kernel
example : (constFloat single (10 ^ 39) 1).isNone = true := by decide +kernel

end Verif
