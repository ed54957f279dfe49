import Verif.Wire.Basic
/-
The primitive writers, v10/vm/writers.go.

A writer is modelled by the sequence of `Write` (or `WriteByte`, `WriteString`)
calls it makes: a list of chunks. `byteWriter` says whether the `io.Writer` also
implements `vm.ByteWriter` (writers.go:12-15).
-/
namespace Verif

/-- The chunks handed to the underlying writer, in order. -/
abbrev Trace := List (List Byte)

/-- All bytes of a trace. -/
abbrev Trace.bytes (t : Trace) : List Byte := t.flatten

/-- `encodeInt` and `encodeFloat` hand a `ByteWriter` one byte at a time and any other
writer all bytes at once (v10/vm/writers.go:95-109, 125-153). -/
def emit (byteWriter : Bool) (bs : List Byte) : Trace :=
  if byteWriter then bs.map ([·]) else [bs]

/-- The loop of `encodeInt`, v10/vm/writers.go:134-148. -/
def encodeLoop (e : BitVec 64) : List Byte :=
  if h : e = 0 then [] else
    let b : Byte := (e &&& 127).setWidth 8
    let e' := e >>> 7
    let b := if e' = 0 then b else b ||| 128
    b :: encodeLoop e'
termination_by e.toNat
decreasing_by
  have : e.toNat ≠ 0 := fun h0 => h (BitVec.eq_of_toNat_eq (by simpa using h0))
  simp only [BitVec.toNat_ushiftRight, Nat.shiftRight_eq_div_pow]
  omega

/-- `encodeInt`, v10/vm/writers.go:112-156. -/
def encodeInt (e : BitVec 64) : List Byte := if e = 0 then [0] else encodeLoop e

/-- `WriteBool`, v10/vm/writers.go:17-35. -/
def writeBool (b : Bool) : Trace := [[if b then 1 else 0]]

/-- `uint64((uint32(r) << 1) ^ uint32(r>>31))`, v10/vm/writers.go:53-54. -/
def zigzag32 (r : BitVec 32) : BitVec 64 := ((r <<< 1) ^^^ (r.sshiftRight 31)).setWidth 64

/-- `uint64((r << 1) ^ (r >> 63))`, v10/vm/writers.go:60-61. -/
def zigzag64 (r : BitVec 64) : BitVec 64 := (r <<< 1) ^^^ (r.sshiftRight 63)

/-- `WriteInt`, v10/vm/writers.go:52-57. -/
def writeInt (bw : Bool) (r : BitVec 32) : Trace := emit bw (encodeInt (zigzag32 r))

/-- `WriteLong`, v10/vm/writers.go:59-64. -/
def writeLong (bw : Bool) (r : BitVec 64) : Trace := emit bw (encodeInt (zigzag64 r))

/-- The loop of `encodeFloat`, v10/vm/writers.go:94-104. -/
def encodeFloat : Nat → BitVec 64 → List Byte
  | 0, _ => []
  | n + 1, bits => (bits &&& 255).setWidth 8 :: encodeFloat n (bits >>> 8)

/-- `WriteFloat`, v10/vm/writers.go:66-70 (the value is the IEEE bit pattern). -/
def writeFloat (bw : Bool) (r : BitVec 32) : Trace := emit bw (encodeFloat 4 (r.setWidth 64))

/-- `WriteDouble`, v10/vm/writers.go:46-50 (the value is the IEEE bit pattern). -/
def writeDouble (bw : Bool) (r : BitVec 64) : Trace := emit bw (encodeFloat 8 r)

/-- `WriteBytes`, v10/vm/writers.go:37-44. -/
def writeBytes (bw : Bool) (bs : List Byte) : Trace :=
  writeLong bw (BitVec.ofNat 64 bs.length) ++ [bs]

/-- `WriteString`, v10/vm/writers.go:72-83 (`WriteString` and `Write` of the underlying
writer take the same bytes). -/
def writeString (bw : Bool) (bs : List Byte) : Trace :=
  writeLong bw (BitVec.ofNat 64 bs.length) ++ [bs]

/-- `WriteNull`, v10/vm/writers.go:158-160. -/
def writeNull : Trace := []

end Verif
