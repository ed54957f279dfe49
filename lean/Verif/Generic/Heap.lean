import Verif.Spec.Heap
import Verif.Generic.Decode
/-
Package v10/generic in memory: which objects the values that `Deserialize` returns are made of.
-/
namespace Verif

mutual
/-- What `encoding/json` makes of the default of a field when the schema is parsed
(v10/parser/namespace.go:64-70, 180): new objects. -/
def loadJson : Json → Heap → HVal × Heap
  | .arr js, H => match loadJsons js H with
    | (vs, H1) => (.ref H1.length, H1 ++ [.list vs])
  | .obj kvs, H => match loadEntries kvs H with
    | (es, H1) => (.ref H1.length, H1 ++ [.record es])
  | j, H => (.atom (.json j), H)
/-- The items of an array. -/
def loadJsons : List Json → Heap → List HVal × Heap
  | [], H => ([], H)
  | j :: js, H => match loadJson j H with
    | (v, H1) => match loadJsons js H1 with
      | (vs, H2) => (v :: vs, H2)
/-- The entries of an object. -/
def loadEntries : List (Str × Json) → Heap → List (Str × HVal) × Heap
  | [], H => ([], H)
  | (k, j) :: js, H => match loadJson j H with
    | (v, H1) => match loadEntries js H1 with
      | (vs, H2) => ((k, v) :: vs, H2)
end

/-- The defaults of the fields of a list of fields. -/
def dfltsOf (fs : List Field) : List Json := fs.filterMap (·.dflt)

/-- The defaults of all fields of all records of a schema. -/
def Env.defaults (env : Env) : List Json := env.flatMap fun x => match x.2.kind with
  | .record fs => dfltsOf fs
  | _ => []

/-- The defaults of a schema in memory: for each field, its default and the variable `defValue`
that holds it (v10/schema/field.go:50-63, 113-115). -/
abbrev Roots := List (Json × HVal)

/-- `ParseSchema`, as far as defaults are concerned: one after the other, in new objects. -/
def loadAll : List Json → Heap → Roots × Heap
  | [], H => ([], H)
  | j :: js, H => match loadJson j H with
    | (v, H1) => match loadAll js H1 with
      | (rs, H2) => ((j, v) :: rs, H2)

section
variable (roots : Roots)

mutual
/-- The variable and the objects in which `Deserialize` returns the value `g`: `Datum()` makes a
new slice for an array (array.go:13-19), a new map for a map (map.go:13-19) and for a record
(record.go:20-26); a `[]byte` is the one that `readBytes` or `readFixed` made
(v10/vm/readers.go:31-50, eval.go:58-63), each read once and set once; but a default is
`field.Default()` itself (record.go:40-43). Fields are told apart by their defaults only: if
two fields have equal defaults, this allows the variable of either. -/
inductive Build : Heap → GVal → HVal → Heap → Prop
  | nil {H} : Build H .nil (.atom .nil) H
  | bool {H b} : Build H (.bool b) (.atom (.bool b)) H
  | int {H v} : Build H (.int v) (.atom (.int v)) H
  | long {H v} : Build H (.long v) (.atom (.long v)) H
  | float {H v} : Build H (.float v) (.atom (.float v)) H
  | double {H v} : Build H (.double v) (.atom (.double v)) H
  | string {H bs} : Build H (.string bs) (.atom (.string bs)) H
  | symbol {H s} : Build H (.symbol s) (.atom (.symbol s)) H
  | bytes {H bs} : Build H (.bytes bs) (.ref H.length) (H ++ [.bytes bs])
  | list {H gs vs H1} : BuildItems H gs vs H1 → Build H (.list gs) (.ref H1.length) (H1 ++ [.list vs])
  | map {H kgs es H1} : BuildEntries H kgs es H1 → Build H (.map kgs) (.ref H1.length) (H1 ++ [.map es])
  | record {H kgs es H1} : BuildFields H kgs es H1 → Build H (.record kgs) (.ref H1.length) (H1 ++ [.record es])
  | json {H j v} : (j, v) ∈ roots → Build H (.json j) v H
/-- The items of an array, array.go:15-17. -/
inductive BuildItems : Heap → List GVal → List HVal → Heap → Prop
  | nil {H} : BuildItems H [] [] H
  | cons {H g gs v vs H1 H2} : Build H g v H1 → BuildItems H1 gs vs H2 → BuildItems H (g :: gs) (v :: vs) H2
/-- The entries of a map, map.go:15-17. -/
inductive BuildEntries : Heap → List (List Byte × GVal) → List (List Byte × HVal) → Heap → Prop
  | nil {H} : BuildEntries H [] [] H
  | cons {H k g gs v vs H1 H2} : Build H g v H1 → BuildEntries H1 gs vs H2 → BuildEntries H ((k, g) :: gs) ((k, v) :: vs) H2
/-- The fields of a record, record.go:22-24. -/
inductive BuildFields : Heap → List (Str × GVal) → List (Str × HVal) → Heap → Prop
  | nil {H} : BuildFields H [] [] H
  | cons {H k g gs v vs H1 H2} : Build H g v H1 → BuildFields H1 gs vs H2 → BuildFields H ((k, g) :: gs) ((k, v) :: vs) H2
end
end

/-- Memory, and the variables of the program that uses the package. -/
structure World where
  heap : Heap
  held : List HVal

/-- The object at `a` can be got at from a variable of the program. -/
def World.Reaches (W : World) (a : Nat) : Prop := ∃ v ∈ W.held, Reached W.heap v a

/-- What the program can do next, having parsed the reader's schema `r`, with its defaults in
`roots`: decode (with a codec for any writer's schema), make an object, or change one; it can
write only to objects it can get at that are in `may`, and put only such objects into them. -/
inductive Act {R : Type} (σ : Setting R) (r : Schema) (roots : Roots) (may : Nat → Prop) : World → World → Prop
  /-- `NewCodec(w, r)` and `Deserialize`, v10/generic/serde.go:30-49 -/
  | decode {w rd g rd' H held v H'} : GDeserializes σ w r rd (.value g rd') → Build roots H g v H' →
      Act σ r roots may ⟨H, held⟩ ⟨H', v :: held⟩
  | make {H held o} : (∀ b, .ref b ∈ o.parts → World.Reaches ⟨H, held⟩ b) →
      Act σ r roots may ⟨H, held⟩ ⟨H ++ [o], .ref H.length :: held⟩
  | write {H held a o} : World.Reaches ⟨H, held⟩ a → may a → (∀ b, .ref b ∈ o.parts → World.Reaches ⟨H, held⟩ b) →
      Act σ r roots may ⟨H, held⟩ ⟨H.set a o, held⟩

/-- Any number of actions. -/
inductive Acts {R : Type} (σ : Setting R) (r : Schema) (roots : Roots) (may : Nat → Prop) : World → World → Prop
  | none {W} : Acts σ r roots may W W
  | more {W W1 W2} : Acts σ r roots may W W1 → Act σ r roots may W1 W2 → Acts σ r roots may W W2
end Verif
