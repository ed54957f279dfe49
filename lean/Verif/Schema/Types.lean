import Verif.Wire.Basic
/-
Schemas after parsing and resolution: v10/schema/*.go.

In Go a schema is a graph: a `Reference` points to its `Definition`. Here a schema
is a finite tree whose references carry the qualified name, plus a table of
definitions (`Namespace.Definitions`, v10/parser/namespace.go:15).
-/
namespace Verif

/-- `QualifiedName`, v10/schema/qualified_name.go:4-7. -/
structure QName where
  ns : Str
  name : Str
  deriving DecidableEq, Repr

/-- JSON values as produced by `json.Unmarshal` into `interface{}`. Numbers are
`float64` in Go; `num` are those with an integral value, `real` the others, as bits. -/
inductive Json where
  | null
  | bool (b : Bool)
  | num (n : Int)
  | real (bits : BitVec 64)
  | str (s : Str)
  | arr (l : List Json)
  | obj (l : List (Str × Json))

/-- `AvroType`: the field types of v10/schema (null.go, bool.go, int.go, long.go,
float.go, double.go, bytes.go, string.go, array.go, map.go, union.go, reference.go). -/
inductive Ty where
  | null | bool | int | long | float | double | bytes | string
  | array (item : Ty)
  | map (item : Ty)
  | union (ts : List Ty)
  | ref (q : QName)

/-- `Field`, v10/schema/field.go: Avro name, aliases, type, and the default if `hasDef`.
`Index()` is the position in the record. -/
structure Field where
  name : Str
  aliases : List Str := []
  ty : Ty
  dflt : Option Json := none

/-- The three kinds of definition: v10/schema/record.go, enum.go, fixed.go. The enum
default is the empty string when absent (enum.go:114). -/
inductive DefKind where
  | record (fields : List Field)
  | enum (symbols : List Str) (dflt : Str)
  | fixed (size : Int)

/-- `Definition`, v10/schema/definition.go:7-27. -/
structure Def where
  name : QName
  aliases : List QName := []
  kind : DefKind

/-- `Namespace.Definitions`, v10/parser/namespace.go:15: names and aliases to definitions. -/
abbrev Env := List (QName × Def)

/-- `Reference.Def` after resolution, v10/resolver/resolver.go. -/
def Env.find (env : Env) (q : QName) : Option Def :=
  match env with
  | [] => none
  | (q', d) :: rest => if q' = q then some d else Env.find rest q

/-- A resolved schema. -/
structure Schema where
  env : Env
  root : Ty

/-- `FieldByName`, v10/schema/record.go:96-103 with `NameMatchesAliases`,
v10/schema/field.go:95-107. Also returns `Index()`, the position. -/
def fieldByNameFrom (i : Nat) : List Field → Str → Option (Nat × Field)
  | [], _ => none
  | f :: fs, n => if f.name = n ∨ n ∈ f.aliases then some (i, f) else fieldByNameFrom (i + 1) fs n

/-- `FieldByName`, v10/schema/record.go:96-103. -/
def fieldByName (fs : List Field) (n : Str) : Option (Nat × Field) := fieldByNameFrom 0 fs n

/-- `SymbolIndex`, v10/schema/enum.go:46-53 (`none` for -1). -/
def symbolIndexFrom (i : Nat) : List Str → Str → Option Nat
  | [], _ => none
  | s :: ss, x => if s = x then some i else symbolIndexFrom (i + 1) ss x

/-- `SymbolIndex`, v10/schema/enum.go:46-53. -/
def symbolIndex (ss : List Str) (x : Str) : Option Nat := symbolIndexFrom 0 ss x

end Verif
