/-
Independent specification of Avro's primitive encodings
(Apache Avro specification, "Binary Encoding"), on natural numbers and integers.
Nothing here refers to the model.
-/
namespace Verif.Spec

/-- Zig-zag: 0, -1, 1, -2, 2, ... become 0, 1, 2, 3, 4, ... -/
def zigzag (x : Int) : Nat := if 0 ≤ x then 2 * x.toNat else 2 * (-x).toNat - 1

/-- Variable-length form of a natural number: base-128 digits, least significant
first, every digit but the last marked with the high bit. -/
def varint (n : Nat) : List Nat :=
  if n < 128 then [n] else (128 + n % 128) :: varint (n / 128)
termination_by n

/-- The value denoted by a list of varint bytes. -/
def varintValue : List Nat → Nat
  | [] => 0
  | b :: bs => b % 128 + 128 * varintValue bs

/-- An int or long. -/
def long (x : Int) : List Nat := varint (zigzag x)

/-- `k` bytes of `n`, least significant first. -/
def littleEndian : Nat → Nat → List Nat
  | 0, _ => []
  | k + 1, n => n % 256 :: littleEndian k (n / 256)

end Verif.Spec
