import Verif.Spec.Generic
/-
Go values in memory: maps, slices and byte slices are objects that a variable refers to, so two
variables may refer to the same one; all other values are copied when they are assigned.
-/
namespace Verif

/-- A variable of type `interface{}`: a value that is copied when it is assigned, or a reference
to the object at the address `a`. -/
inductive HVal where
  | atom (g : GVal)
  | ref (a : Nat)

/-- An object in memory: the bytes of a `[]byte`, the items of a `[]interface{}`, the entries of a
`map[string]interface{}` (keys as bytes, or as characters). A slice is its array here: slices
of one array that differ in their bounds do not occur. -/
inductive Obj where
  | bytes (bs : List Byte)
  | list (vs : List HVal)
  | map (es : List (List Byte × HVal))
  | record (es : List (Str × HVal))

/-- The objects, by address. Nothing is ever freed. -/
abbrev Heap := List Obj

/-- The variables in an object. -/
def Obj.parts : Obj → List HVal
  | .bytes _ => []
  | .list vs => vs
  | .map es => es.map (·.2)
  | .record es => es.map (·.2)

/-- The object at `a` can be got at from the variable `v`. -/
inductive Reached (H : Heap) (v : HVal) : Nat → Prop
  | here {a} : v = .ref a → Reached H v a
  | part {a b o} : Reached H v a → H[a]? = some o → .ref b ∈ o.parts → Reached H v b

section
variable (H : Heap)

mutual
/-- In memory `H`, the variable `v` shows the JSON value `j`, as `encoding/json` represents it, and
is made of the objects `fp`: each is listed once for every place where it is used. -/
def JsonMadeOf : Json → HVal → List Nat → Prop
  | .arr js, v, fp => ∃ a vs fps, v = .ref a ∧ H[a]? = some (.list vs) ∧ JsonsMadeOf js vs fps ∧ fp = a :: fps
  | .obj kvs, v, fp => ∃ a es fps, v = .ref a ∧ H[a]? = some (.record es) ∧ JsonEntriesMadeOf kvs es fps ∧ fp = a :: fps
  | j, v, fp => v = .atom (.json j) ∧ fp = []
def JsonsMadeOf : List Json → List HVal → List Nat → Prop
  | [], vs, fp => vs = [] ∧ fp = []
  | j :: js, vs, fp => ∃ v vs' fp1 fp2, vs = v :: vs' ∧ JsonMadeOf j v fp1 ∧ JsonsMadeOf js vs' fp2 ∧ fp = fp1 ++ fp2
def JsonEntriesMadeOf : List (Str × Json) → List (Str × HVal) → List Nat → Prop
  | [], vs, fp => vs = [] ∧ fp = []
  | (k, j) :: js, vs, fp => ∃ v vs' fp1 fp2, vs = (k, v) :: vs' ∧ JsonMadeOf j v fp1 ∧ JsonEntriesMadeOf js vs' fp2 ∧
      fp = fp1 ++ fp2
end

mutual
/-- In memory `H`, the variable `v` shows the value `g` and is made of the objects `fp`: each is
listed once for every place where it is used. -/
def MadeOf : GVal → HVal → List Nat → Prop
  | .bytes bs, v, fp => ∃ a, v = .ref a ∧ H[a]? = some (.bytes bs) ∧ fp = [a]
  | .list gs, v, fp => ∃ a vs fps, v = .ref a ∧ H[a]? = some (.list vs) ∧ ItemsMadeOf gs vs fps ∧ fp = a :: fps
  | .map kgs, v, fp => ∃ a es fps, v = .ref a ∧ H[a]? = some (.map es) ∧ EntriesMadeOf kgs es fps ∧ fp = a :: fps
  | .record kgs, v, fp => ∃ a es fps, v = .ref a ∧ H[a]? = some (.record es) ∧ FieldsMadeOf kgs es fps ∧ fp = a :: fps
  | .json j, v, fp => JsonMadeOf H j v fp
  | g, v, fp => v = .atom g ∧ fp = []
def ItemsMadeOf : List GVal → List HVal → List Nat → Prop
  | [], vs, fp => vs = [] ∧ fp = []
  | g :: gs, vs, fp => ∃ v vs' fp1 fp2, vs = v :: vs' ∧ MadeOf g v fp1 ∧ ItemsMadeOf gs vs' fp2 ∧ fp = fp1 ++ fp2
def EntriesMadeOf : List (List Byte × GVal) → List (List Byte × HVal) → List Nat → Prop
  | [], vs, fp => vs = [] ∧ fp = []
  | (k, g) :: gs, vs, fp => ∃ v vs' fp1 fp2, vs = (k, v) :: vs' ∧ MadeOf g v fp1 ∧ EntriesMadeOf gs vs' fp2 ∧ fp = fp1 ++ fp2
def FieldsMadeOf : List (Str × GVal) → List (Str × HVal) → List Nat → Prop
  | [], vs, fp => vs = [] ∧ fp = []
  | (k, g) :: gs, vs, fp => ∃ v vs' fp1 fp2, vs = (k, v) :: vs' ∧ MadeOf g v fp1 ∧ FieldsMadeOf gs vs' fp2 ∧ fp = fp1 ++ fp2
end

/-- The variable `v` shows the value `g`. -/
def Shows (g : GVal) (v : HVal) : Prop := ∃ fp, MadeOf H g v fp
end

/-- A scalar JSON value: `encoding/json` makes a value of it that is copied when assigned. -/
def Json.scalar : Json → Bool
  | .arr _ => false
  | .obj _ => false
  | _ => true
end Verif
