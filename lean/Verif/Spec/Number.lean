import Verif.Spec.Float
import Verif.Schema.Types
/-
Numbers as fractions and the floats nearest to them.
-/
namespace Verif
namespace Fmt
variable (F : Fmt)

/-- `b` is the float that IEEE 754 rounding (to nearest, ties to even) gives for the number
`a / d`: finite, no other float is nearer, and its fraction is even if another one is as near. The
bit pattern of infinity takes part as the number that would come after the greatest float. Zero
has no sign, as for Go's constants. -/
structure Near (a : Int) (d : Nat) (b : BitVec F.width) : Prop where
  finite : F.IsFinite b
  nearest : ∀ b', ¬F.IsNaN b' →
    (F.scaled b * d - a * 2 ^ F.scale).natAbs ≤ (F.scaled b' * d - a * 2 ^ F.scale).natAbs
  even : ∀ b', ¬F.IsNaN b' → F.scaled b' ≠ F.scaled b →
    (F.scaled b * d - a * 2 ^ F.scale).natAbs = (F.scaled b' * d - a * 2 ^ F.scale).natAbs → b.toNat % 2 = 0
  zero : F.scaled b = 0 → F.neg b = false

end Fmt

/-- The number a JSON value stands for, as a fraction; infinities and
NaNs are none. -/
def Json.number : Json → Option (Int × Nat)
  | .num z => some (z, 1)
  | .real bits => if double.low bits / 2 ^ double.p < 2 ^ double.k - 1 then some (double.scaled bits, 2 ^ double.scale) else none
  | _ => none

end Verif
