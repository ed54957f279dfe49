/-
The numbers that IEEE 754 bit patterns stand for. To stay with integers they are scaled:
a finite single is `scaled32 b / 2 ^ 149`, a finite double `scaled64 b / 2 ^ 1074`.
-/
namespace Verif

/-- A format: `p` fraction bits and `k` exponent bits. -/
structure Fmt where
  p : Nat
  k : Nat

/-- binary32 and binary64 -/
def single : Fmt := ⟨23, 8⟩
def double : Fmt := ⟨52, 11⟩

namespace Fmt
variable (F : Fmt)

/-- The exponent's bias is `2 ^ (k - 1) - 1`; the least positive number is `2 ^ (1 - bias - p)`. -/
def bias : Nat := 2 ^ (F.k - 1) - 1

/-- Numbers are multiples of `1 / 2 ^ scale`. -/
def scale : Nat := F.bias + F.p - 1

/-- The magnitude that exponent and fraction bits stand for, times `2 ^ scale`: with exponent 0
it is the fraction, else `(1 + fraction / 2 ^ p) * 2 ^ (exponent - bias)`. -/
def mag (n : Nat) : Nat :=
  if n / 2 ^ F.p = 0 then n % 2 ^ F.p else (2 ^ F.p + n % 2 ^ F.p) * 2 ^ (n / 2 ^ F.p - 1)

/-- Exponent and fraction bits of a finite number: the exponent is not all ones. -/
def finite (n : Nat) : Prop := n / 2 ^ F.p < 2 ^ F.k - 1

/-- A bit pattern: sign, exponent, fraction. -/
def width : Nat := 1 + F.k + F.p

/-- Exponent and fraction bits. -/
def low (b : BitVec F.width) : Nat := b.toNat % 2 ^ (F.k + F.p)

def IsFinite (b : BitVec F.width) : Prop := F.finite (F.low b)

def IsNaN (b : BitVec F.width) : Prop := F.low b / 2 ^ F.p = 2 ^ F.k - 1 ∧ F.low b % 2 ^ F.p ≠ 0

def IsInf (b : BitVec F.width) : Prop := F.low b / 2 ^ F.p = 2 ^ F.k - 1 ∧ F.low b % 2 ^ F.p = 0

/-- The sign bit is set. -/
def neg (b : BitVec F.width) : Bool := 2 ^ (F.k + F.p) ≤ b.toNat

/-- The number, times `2 ^ scale`. -/
def scaled (b : BitVec F.width) : Int := if F.neg b then -(F.mag (F.low b) : Int) else F.mag (F.low b)

/-- `b` is a finite float nearest to the integer `x`, and the one with an even fraction if
there are two. -/
structure Nearest (x : Int) (b : BitVec F.width) : Prop where
  finite : F.IsFinite b
  nearest : ∀ b', F.IsFinite b' →
    (F.scaled b - x * 2 ^ F.scale).natAbs ≤ (F.scaled b' - x * 2 ^ F.scale).natAbs
  even : ∀ b', F.IsFinite b' → F.scaled b' ≠ F.scaled b →
    (F.scaled b - x * 2 ^ F.scale).natAbs = (F.scaled b' - x * 2 ^ F.scale).natAbs → b.toNat % 2 = 0

/-- `b` stands for the integer `x`. -/
def Exact (x : Int) (b : BitVec F.width) : Prop := F.IsFinite b ∧ F.scaled b = x * 2 ^ F.scale

end Fmt

/-- The double `b'` is the single `b`: the same number, an infinity of the same sign, or a NaN. -/
structure SameNumber (b : BitVec 32) (b' : BitVec 64) : Prop where
  neg : double.neg b' = single.neg b
  finite : single.IsFinite b → double.IsFinite b' ∧ double.scaled b' * 2 ^ single.scale = single.scaled b * 2 ^ double.scale
  inf : single.IsInf b → double.IsInf b'
  nan : single.IsNaN b → double.IsNaN b'

example : single.scale = 149 ∧ double.scale = 1074 ∧ single.width = 32 ∧ double.width = 64 := by decide
/-- 1.5 -/
example : double.scaled (0x3FF8000000000000 : BitVec 64) * 2 = 3 * 2 ^ 1074 := by decide +kernel
/-- -0.25 -/
example : single.scaled (0xBE800000 : BitVec 32) * 4 = -1 * 2 ^ 149 := by decide +kernel

end Verif
