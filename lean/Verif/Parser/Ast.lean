import Verif.Schema.Names
/-
What the schema parser builds, with every attribute the Go structs hold: v10/schema/*.go as
constructed by v10/parser/namespace.go. References are not resolved yet.
-/
namespace Verif

mutual
/-- `reflect.DeepEqual` on what `json.Unmarshal` produces, v10/parser/namespace.go:31. A JSON object
is a Go map; in the model it is the list of its entries in the order of the keys, each key once, so
that equal maps are equal lists. -/
def Json.beq : Json → Json → Bool
  | .null, .null => true
  | .bool a, .bool b => a == b
  | .num a, .num b => a == b
  | .real a, .real b => a == b
  | .str a, .str b => a == b
  | .arr a, .arr b => Json.beqs a b
  | .obj a, .obj b => Json.beqEntries a b
  | _, _ => false
def Json.beqs : List Json → List Json → Bool
  | [], [] => true
  | a :: as, b :: bs => Json.beq a b && Json.beqs as bs
  | _, _ => false
def Json.beqEntries : List (Str × Json) → List (Str × Json) → Bool
  | [], [] => true
  | (k, a) :: as, (l, b) :: bs => k == l && (Json.beq a b && Json.beqEntries as bs)
  | _, _ => false
end

mutual
theorem Json.beq_iff : ∀ a b : Json, Json.beq a b = true ↔ a = b
  | .null, b => by cases b <;> simp [Json.beq]
  | .bool _, b => by cases b <;> simp [Json.beq]
  | .num _, b => by cases b <;> simp [Json.beq]
  | .real _, b => by cases b <;> simp [Json.beq]
  | .str _, b => by cases b <;> simp [Json.beq]
  | .arr l, b => by cases b <;> simp [Json.beq, Json.beqs_iff l]
  | .obj l, b => by cases b <;> simp [Json.beq, Json.beqEntries_iff l]
theorem Json.beqs_iff : ∀ a b : List Json, Json.beqs a b = true ↔ a = b
  | [], b => by cases b <;> simp [Json.beqs]
  | a :: as, b => by cases b <;> simp [Json.beqs, Json.beq_iff a, Json.beqs_iff as]
theorem Json.beqEntries_iff : ∀ a b : List (Str × Json), Json.beqEntries a b = true ↔ a = b
  | [], b => by cases b <;> simp [Json.beqEntries]
  | (k, a) :: as, b => by
    cases b with
    | nil => simp [Json.beqEntries]
    | cons e bs =>
      obtain ⟨l, b⟩ := e
      simp [Json.beqEntries, Json.beq_iff a, Json.beqEntries_iff as, and_assoc]
end

instance : DecidableEq Json := fun a b => decidable_of_iff _ (Json.beq_iff a b)

/-- The primitive types, v10/parser/namespace.go:370-394. -/
inductive Prim where
  | null | bool | int | long | float | double | bytes | string
  deriving DecidableEq

/-- The types the parser builds: v10/schema/primitive.go:4-10, array.go:9-12, map.go:9-12,
union.go:10-15 (`nullIndex` is computed from the members) and reference.go:4-7 with `Def` still nil.
`defn` is the `definition` field. -/
inductive PTy where
  | prim (p : Prim) (defn : Json)
  | array (item : PTy) (defn : Json)
  | map (item : PTy) (defn : Json)
  | union (name : Str) (ts : List PTy) (defn : List Json)
  | ref (q : QName)

mutual
/-- `reflect.DeepEqual` on types. -/
def PTy.beq : PTy → PTy → Bool
  | .prim p d, .prim p' d' => p == p' && d == d'
  | .array t d, .array t' d' => PTy.beq t t' && d == d'
  | .map t d, .map t' d' => PTy.beq t t' && d == d'
  | .union n ts d, .union n' ts' d' => n == n' && (PTy.beqs ts ts' && d == d')
  | .ref q, .ref q' => q == q'
  | _, _ => false
def PTy.beqs : List PTy → List PTy → Bool
  | [], [] => true
  | a :: as, b :: bs => PTy.beq a b && PTy.beqs as bs
  | _, _ => false
end

mutual
theorem PTy.beq_iff : ∀ a b : PTy, PTy.beq a b = true ↔ a = b
  | .prim _ _, b => by cases b <;> simp [PTy.beq]
  | .array t _, b => by cases b <;> simp [PTy.beq, PTy.beq_iff t]
  | .map t _, b => by cases b <;> simp [PTy.beq, PTy.beq_iff t]
  | .union _ ts _, b => by cases b <;> simp [PTy.beq, PTy.beqs_iff ts]
  | .ref _, b => by cases b <;> simp [PTy.beq]
theorem PTy.beqs_iff : ∀ a b : List PTy, PTy.beqs a b = true ↔ a = b
  | [], b => by cases b <;> simp [PTy.beqs]
  | a :: as, b => by cases b <;> simp [PTy.beqs, PTy.beq_iff a, PTy.beqs_iff as]
end

instance : DecidableEq PTy := fun a b => decidable_of_iff _ (PTy.beq_iff a b)

/-- `Field`, v10/schema/field.go:37-47. `defValue` and `hasDef` are one optional value; the index is
the position in the record. -/
structure PField where
  name : Str
  ty : PTy
  dflt : Option Json
  aliases : List Str
  doc : Str
  tags : Str
  defn : List (Str × Json)
  deriving DecidableEq

/-- What the three kinds of definition hold: record.go:11-17, enum.go:10-17, fixed.go:9-14. -/
inductive PKind where
  | record (fields : List PField) (doc : Str)
  | enum (symbols : List Str) (doc : Str) (dflt : Str)
  | fixed (size : Int)
  deriving DecidableEq

/-- `Definition`: record, enum or fixed. `defn` is the JSON object it was read from
(`metadata`, `definition`). -/
structure PDef where
  name : QName
  aliases : List QName
  kind : PKind
  defn : List (Str × Json)
  deriving DecidableEq

/-- An entry of `Roots`, v10/parser/namespace.go:16: a definition or the type at the top of a file
(`FileRoot`, v10/schema/file_root.go:5-7). -/
inductive Root where
  | defn (d : PDef)
  | file (t : PTy)

/-- `Namespace`, v10/parser/namespace.go:14-18. The map of definitions is an association list whose
keys are distinct. -/
structure NS where
  defs : List (QName × PDef) := []
  roots : List Root := []
  shortUnions : Bool := false

/-- `n.Definitions[q]`. -/
def NS.find (n : NS) (q : QName) : Option PDef := n.defs.lookup q

/-- The type without the attributes that only serve to write the schema out again. -/
def Prim.ty : Prim → Ty
  | .null => .null
  | .bool => .bool
  | .int => .int
  | .long => .long
  | .float => .float
  | .double => .double
  | .bytes => .bytes
  | .string => .string

mutual
/-- The type as the compiler sees it. -/
def PTy.erase : PTy → Ty
  | .prim p _ => p.ty
  | .array t _ => .array t.erase
  | .map t _ => .map t.erase
  | .union _ ts _ => .union (PTy.erases ts)
  | .ref q => .ref q
def PTy.erases : List PTy → List Ty
  | [] => []
  | t :: ts => t.erase :: PTy.erases ts
end

/-- The field as the compiler sees it. -/
def PField.erase (f : PField) : Field := ⟨f.name, f.aliases, f.ty.erase, f.dflt⟩

/-- The definition as the compiler sees it. -/
def PDef.erase (d : PDef) : Def :=
  { name := d.name, aliases := d.aliases,
    kind := match d.kind with
      | .record fs _ => .record (fs.map PField.erase)
      | .enum ss _ dv => .enum ss dv
      | .fixed n => .fixed n }

end Verif
