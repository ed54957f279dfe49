/-
Go's conversions between integers and floats (Go specification, "Conversions between
numeric types": the result is rounded to the precision of the destination type, to
nearest even on all supported platforms). Floats are IEEE 754 bit patterns.

These are the conversions the generated setters use: v10/vm/types/{long,float,double}.go.
-/
namespace Verif

/-- Nearest float to a natural number, ties to even, as exponent and fraction bits:
`p` fraction bits, exponent bias `bias`. For numbers below `2 ^ (bias + 1)`. -/
def natToFloat (p bias n : Nat) : Nat :=
  if n = 0 then 0 else
  let e := n.log2
  if e ≤ p then (e + bias) * 2 ^ p + (n * 2 ^ (p - e) - 2 ^ p)
  else
    let s := e - p
    let q := n / 2 ^ s
    let rem := n % 2 ^ s
    let q' := if 2 ^ (s - 1) < rem ∨ (rem = 2 ^ (s - 1) ∧ q % 2 = 1) then q + 1 else q
    (e + bias) * 2 ^ p + (q' - 2 ^ p)

/-- `float64(int64(x))` for an integer value. -/
def intToFloat64 (x : Int) : BitVec 64 :=
  BitVec.ofNat 64 (natToFloat 52 1023 x.natAbs + if x < 0 then 2 ^ 63 else 0)

/-- `float32(int64(x))` for an integer value. -/
def intToFloat32 (x : Int) : BitVec 32 :=
  BitVec.ofNat 32 (natToFloat 23 127 x.natAbs + if x < 0 then 2 ^ 31 else 0)

/-- `float64(float32(x))`. A NaN keeps its payload and becomes quiet, as the hardware
conversions do (Go does not specify it). -/
def float32To64 (x : BitVec 32) : BitVec 64 :=
  let n := x.toNat
  let sign := n / 2 ^ 31
  let e := n / 2 ^ 23 % 2 ^ 8
  let f := n % 2 ^ 23
  let body :=
    if e = 255 then
      if f = 0 then 2047 * 2 ^ 52
      else 2047 * 2 ^ 52 + (if f < 2 ^ 22 then f + 2 ^ 22 else f) * 2 ^ 29
    else if e = 0 then
      if f = 0 then 0 else (f.log2 + 874) * 2 ^ 52 + (f * 2 ^ (52 - f.log2) - 2 ^ 52)
    else (e + 896) * 2 ^ 52 + f * 2 ^ 29
  BitVec.ofNat 64 (sign * 2 ^ 63 + body)

end Verif
