import Verif.Schema.Types
/-
Values of the generated Go types (v10/generator/flat/templates).
-/
namespace Verif

/-- Order of Go strings used to list a map in one fixed order: by the bytes, as
`strings.Compare`. Go has no order on map entries; the sorted list stands for the map. -/
def keyLt : List Byte → List Byte → Bool
  | _, [] => false
  | [], _ :: _ => true
  | a :: as, b :: bs => if a = b then keyLt as bs else decide (a.toNat < b.toNat)

/-- `m[k] = v` on a map listed in key order. -/
def mapInsert {α : Type} (k : List Byte) (v : α) : List (List Byte × α) → List (List Byte × α)
  | [] => [(k, v)]
  | (k', v') :: m =>
    if k = k' then (k, v) :: m
    else if keyLt k k' then (k, v) :: (k', v') :: m
    else (k', v') :: mapInsert k v m

/-- `m[k] = v` for a sequence of entries, in order. -/
def mapInserts {α : Type} (m : List (List Byte × α)) : List (List Byte × α) → List (List Byte × α)
  | [] => m
  | (k, v) :: es => mapInserts (mapInsert k v m) es

/-- The Go map holding a sequence of entries assigned in order. -/
def mapOf {α : Type} (es : List (List Byte × α)) : List (List Byte × α) := mapInserts [] es

/-- `m[k]`. -/
def mapGet {α : Type} : List (List Byte × α) → List Byte → Option α
  | [], _ => none
  | (k', v) :: m, k => if k' = k then some v else mapGet m k

/-- A Go value of a generated type, or of the Go type of a primitive.

* `null`: the `*types.NullVal` nil pointer (v10/schema/null.go:11);
* `enum`: `type E int32` (templates/enum.go);
* `fixed`: `[n]byte` (templates/fixed.go);
* `map`: a Go map, listed in key order (see `mapOf`);
* `nil`: the nil pointer of a union that has a null member (v10/schema/union.go:53-58);
* `union tag v`: the struct of a union (or a pointer to it): `UnionType` and the field
  it selects (templates/union.go:24-29). The fields not selected are not part of the
  value. `none`: no field has been assigned;
* `record`: the struct of a record, its fields in schema order (templates/record.go:17-26). -/
inductive Val where
  | null
  | bool (b : Bool)
  | int (v : BitVec 32)
  | long (v : BitVec 64)
  | float (bits : BitVec 32)
  | double (bits : BitVec 64)
  | bytes (bs : List Byte)
  | string (bs : List Byte)
  | fixed (bs : List Byte)
  | enum (v : BitVec 32)
  | array (vs : List Val)
  | map (es : List (List Byte × Val))
  | nil
  | union (tag : BitVec 64) (v : Option Val)
  | record (vs : List Val)

/-- All of the values, if all are there. -/
def allSome {α : Type} : List (Option α) → Option (List α)
  | [] => some []
  | none :: _ => none
  | some a :: l => (allSome l).map (a :: ·)

end Verif
