import Verif.Parser.Parse
import Verif.Compiler.Fuel
/-
Writing a schema out again: the `Definition` methods of v10/schema and `Schema()`, which is the text
a generated type carries. The text itself is not shown: `json.Marshal` and the later `json.Unmarshal`
are taken to give back the same value.
-/
namespace Verif

/-- `def[key] = value` on a Go map; the entries are kept in the order of the keys. -/
def setKey (k : Str) (v : Json) : JObj → JObj
  | [] => [(k, v)]
  | (k', v') :: o =>
    if k' = k then (k, v) :: o
    else if k < k' then (k, v) :: (k', v') :: o
    else (k', v') :: setKey k v o

/-- `delete(def, key)`. -/
def deleteKey (k : Str) (o : JObj) : JObj := o.filter fun e => e.1 ≠ k

/-- What `Definition` is to its callees: the names already written (`scope`) are passed on. `none` is
a nil dereference (an unresolved reference), an assignment to something that is no map, or a
recursion cut short. -/
abbrev Writing := PTy → List QName → Option (Json × List QName)

/-- The loop of `UnionField.Definition`, v10/schema/union.go:103-108. -/
def writeMembers (f : Writing) : List PTy → List QName → Option (List Json × List QName)
  | [], scope => some ([], scope)
  | t :: ts, scope => match f t scope with
    | none => none
    | some (j, scope) => match writeMembers f ts scope with
      | none => none
      | some (js, scope) => some (j :: js, scope)

/-- `Field.Definition`, v10/schema/field.go:124-132, for each field: the loop of
v10/schema/record.go:64-70. -/
def writeFields (f : Writing) : List PField → List QName → Option (List Json × List QName)
  | [], scope => some ([], scope)
  | x :: xs, scope => match f x.ty scope with
    | none => none
    | some (j, scope) => match writeFields f xs scope with
      | none => none
      | some (js, scope) => some (.obj (setKey "type".toList j x.defn) :: js, scope)

/-- `Definition` of a record, an enum or a fixed: v10/schema/record.go:57-74, enum.go:83-89,
fixed.go:57-63. -/
def writeDef (f : Writing) (d : PDef) (scope : List QName) : Option (Json × List QName) :=
  if d.name ∈ scope then some (.str d.name.str, scope)
  else match d.kind with
    | .record fs _ => match writeFields f fs (d.name :: scope) with
      | none => none
      | some (js, scope) => some (.obj (setKey "fields".toList (.arr js) d.defn), scope)
    | _ => some (.obj d.defn, d.name :: scope)

/-- `Definition` of a type: primitive.go:29-31, array.go:45-53, map.go:45-53, union.go:100-110,
reference.go:31-33. The number bounds the recursion. -/
def writeTy (n : NS) : Nat → Writing
  | 0, _, _ => none
  | _ + 1, .prim _ j, scope => some (j, scope)
  | k + 1, .array t defn, scope => match defn, writeTy n k t scope with
    | .obj o, some (j, scope) => some (.obj (setKey "items".toList j o), scope)
    | _, _ => none
  | k + 1, .map t defn, scope => match defn, writeTy n k t scope with
    | .obj o, some (j, scope) => some (.obj (setKey "values".toList j o), scope)
    | _, _ => none
  | k + 1, .union _ ts _, scope => match writeMembers (writeTy n k) ts scope with
    | none => none
    | some (js, scope) => some (.arr js, scope)
  | k + 1, .ref q, scope => match n.find q with
    | none => none
    | some d => writeDef (writeTy n k) d scope

/-- A bound on the recursion: large enough (`Props.schema_written`). -/
def writeBound (n : NS) (t : PTy) : Nat := t.erase.size + n.env.length * (n.env.fsize + 1)

/-- `RecordDefinition.Schema`, v10/schema/record.go:141-151. -/
def recordSchema (n : NS) (d : PDef) : Option Json :=
  match writeDef (writeTy n (writeBound n (.ref d.name))) d [] with
  | some (.obj o, _) => some (.obj (setKey "name".toList (.str d.name.str) (deleteKey "namespace".toList o)))
  | _ => none

/-- `UnionField.Schema`, v10/schema/union.go:91-98. -/
def unionSchema (n : NS) (ts : List PTy) : Option Json :=
  (writeMembers (writeTy n (n.env.length * (n.env.fsize + 1) + Ty.sizes (PTy.erases ts))) ts []).map fun r => .arr r.1

end Verif
