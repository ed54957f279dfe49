import Verif.Schema.Types
/-
Avro data as the Avro specification sees them: what is written on the wire, before
any language-specific representation.
-/
namespace Verif

/-- An Avro datum. `float` and `double` are IEEE bit patterns. An enum carries the index
of its symbol, a union the index of its branch; a map its entries in the order they
are on the wire. -/
inductive Datum where
  | null
  | bool (b : Bool)
  | int (v : BitVec 32)
  | long (v : BitVec 64)
  | float (bits : BitVec 32)
  | double (bits : BitVec 64)
  | bytes (bs : List Byte)
  | string (bs : List Byte)
  | fixed (bs : List Byte)
  | enum (i : Int)
  | array (ds : List Datum)
  | map (es : List (List Byte × Datum))
  | union (i : Nat) (d : Datum)
  | record (ds : List Datum)

end Verif
