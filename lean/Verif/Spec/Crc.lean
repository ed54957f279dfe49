/-
CRC-64-AVRO (Apache Avro specification, "Schema Fingerprints"), one bit at a time.
Nothing here refers to the model.
-/
namespace Verif.Spec

/-- The 64-bit constant of the specification: generator polynomial and initial value. -/
def crcEmpty : BitVec 64 := 0xc15d213aa4d7a795#64

/-- Feeding one bit: the register moves right; if the bit that drops out differs from the
message bit, the generator polynomial is added. -/
def crcBit (fp : BitVec 64) (b : Bool) : BitVec 64 :=
  if fp.getLsbD 0 != b then (fp >>> 1) ^^^ crcEmpty else fp >>> 1

/-- The bits of an octet, least significant first. -/
def crcBits (d : BitVec 8) : List Bool := (List.range 8).map d.getLsbD

/-- The fingerprint of a byte sequence: all its bits, one after the other. -/
def crc64 (data : List (BitVec 8)) : BitVec 64 := (data.flatMap crcBits).foldl crcBit crcEmpty

end Verif.Spec
