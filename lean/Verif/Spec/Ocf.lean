import Verif.Spec.Encoding
/-
Avro's object container files (Apache Avro specification, "Object Container Files"): a header
and blocks.
-/
namespace Verif.Spec.Ocf
open Verif

/-- "Obj" and the number 1. -/
def magic : List Byte := octets [0x4F, 0x62, 0x6A, 1]

/-- The keys of the metadata, in ASCII: "avro.schema", "avro.codec". -/
def schemaKey : List Byte := octets [0x61, 0x76, 0x72, 0x6F, 0x2E, 0x73, 0x63, 0x68, 0x65, 0x6D, 0x61]
def codecKey : List Byte := octets [0x61, 0x76, 0x72, 0x6F, 0x2E, 0x63, 0x6F, 0x64, 0x65, 0x63]

/-- The names of the codecs: "null", "deflate", "snappy". -/
def nullName : List Byte := octets [0x6E, 0x75, 0x6C, 0x6C]
def deflateName : List Byte := octets [0x64, 0x65, 0x66, 0x6C, 0x61, 0x74, 0x65]
def snappyName : List Byte := octets [0x73, 0x6E, 0x61, 0x70, 0x70, 0x79]

/-- Bytes or a string: the length and the bytes. -/
def sized (x : List Byte) : List Byte := encLong x.length ++ x

/-- An entry of the file metadata, a map with bytes as values. -/
def entry (e : List Byte × List Byte) : List Byte := sized e.1 ++ sized e.2

/-- `h` is a header: the magic, the metadata (a map, cut into blocks in any way), the sync
marker. -/
def Header (magic : List Byte) (es : List (List Byte × List Byte)) (sync h : List Byte) : Prop :=
  ∃ m, Blocks (es.map entry) m ∧ h = magic ++ m ++ sync

/-- A block: the number of objects, the size of the data in bytes, the data, the sync marker. -/
def block (sync : List Byte) (b : Nat × List Byte) : List Byte := encLong b.1 ++ sized b.2 ++ sync

/-- The blocks of a file: for each the number of its objects and its data. -/
def blocks (sync : List Byte) (bs : List (Nat × List Byte)) : List Byte := (bs.map (block sync)).flatten

/-- `f` is a container file with this metadata, this sync marker and these blocks. -/
def File (es : List (List Byte × List Byte)) (sync : List Byte) (bs : List (Nat × List Byte)) (f : List Byte) : Prop :=
  ∃ h, Header magic es sync h ∧ f = h ++ blocks sync bs

end Verif.Spec.Ocf
