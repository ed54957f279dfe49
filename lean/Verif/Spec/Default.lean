import Verif.Gen.Val
import Verif.Spec.Number
import Verif.Canonical.Form
/-
What a JSON default stands for: the Avro specification, "Complex Types", table of field
default values.
-/
namespace Verif

/-- The value of a key in an object. -/
def member {α : Type} : List (Str × α) → Str → Option α
  | [], _ => none
  | (k', j) :: kvs, k => if k' = k then some j else member kvs k

/-- What a field of a record default gets: the object's entry of its name, else its own default. -/
def Field.given (f : Field) (kvs : List (Str × Json)) : Option Json :=
  match member kvs f.name with
  | some j => some j
  | none => f.dflt

/-- Types whose value in a map is set by one assignment to the entry. -/
inductive InMap (env : Env) : Ty → Prop
  | bool : InMap env .bool
  | int : InMap env .int
  | long : InMap env .long
  | float : InMap env .float
  | double : InMap env .double
  | bytes : InMap env .bytes
  | string : InMap env .string
  | array {t} : InMap env (.array t)
  | enum {q d syms e} : env.find q = some d → d.kind = .enum syms e → InMap env (.ref q)
  /-- a union with null -/
  | union {ts t} : t ∈ ts → t = .null → InMap env (.union ts)

/-- The type is a map or a record. -/
inductive Merged (env : Env) : Ty → Prop
  | map {t} : Merged env (.map t)
  | record {q d fs} : env.find q = some d → d.kind = .record fs → Merged env (.ref q)

/-- `j` as default of a field of type `t` stands for the value `v`.

`DefaultMeans false` is what Avro says. `DefaultMeans true` adds conditions (`lim = true → ...`): the defaults that
the generated code sets as it should (see C69 for what it does with the others). -/
inductive DefaultMeans (env : Env) (lim : Bool) : Json → Ty → Val → Prop
  | null : DefaultMeans env lim .null .null .null
  | bool {b} : DefaultMeans env lim (.bool b) .bool (.bool b)
  | int {z : Int} : -2 ^ 31 ≤ z → z < 2 ^ 31 → DefaultMeans env lim (.num z) .int (.int (BitVec.ofInt 32 z))
  /-- condition: at most 53 bits -/
  | long {z : Int} : -2 ^ 63 ≤ z → z < 2 ^ 63 → (lim = true → z.natAbs < 2 ^ 53) →
      DefaultMeans env lim (.num z) .long (.long (BitVec.ofInt 64 z))
  /-- condition: the same float is nearest to all numbers that have the same nearest double -/
  | float {j a d b} : j.number = some (a, d) → single.Near a d b →
      (lim = true → ∃ b', double.Near a d b' ∧ ∀ a' d', 0 < d' → double.Near a' d' b' → single.Near a' d' b) →
      DefaultMeans env lim j .float (.float b)
  | double {j a d b} : j.number = some (a, d) → double.Near a d b → DefaultMeans env lim j .double (.double b)
  /-- code points 0-255 are bytes -/
  | bytes {s : Str} : (∀ c ∈ s, c.toNat < 256) →
      DefaultMeans env lim (.str s) .bytes (.bytes (s.map fun c => BitVec.ofNat 8 c.toNat))
  | string {s : Str} : DefaultMeans env lim (.str s) .string (.string (utf8 s))
  | enum {q d syms e s i} : env.find q = some d → d.kind = .enum syms e → syms[i]? = some s →
      DefaultMeans env lim (.str s) (.ref q) (.enum (BitVec.ofNat 32 i))
  /-- condition: ASCII -/
  | fixed {q d} {n : Int} {s : Str} : env.find q = some d → d.kind = .fixed n → (∀ c ∈ s, c.toNat < 256) →
      (s.length : Int) = n → (lim = true → ∀ c ∈ s, c.toNat < 128) →
      DefaultMeans env lim (.str s) (.ref q) (.fixed (s.map fun c => BitVec.ofNat 8 c.toNat))
  | array {js t} {vs : List Val} : js.length = vs.length →
      (∀ (i : Nat) j v, js[i]? = some j → vs[i]? = some v → DefaultMeans env lim j t v) →
      DefaultMeans env lim (.arr js) (.array t) (.array vs)
  /-- condition: items are set by one assignment -/
  | map {kvs : List (Str × Json)} {t} {vs : List Val} : (kvs.map Prod.fst).Nodup → kvs.length = vs.length →
      (∀ (i : Nat) kv v, kvs[i]? = some kv → vs[i]? = some v → DefaultMeans env lim kv.2 t v) →
      (lim = true → InMap env t) →
      DefaultMeans env lim (.obj kvs) (.map t) (.map (mapOf ((kvs.map fun kv => utf8 kv.1).zip vs)))
  /-- a default of a union belongs to its first member -/
  | unionNull {ts} : ts[0]? = some .null → DefaultMeans env lim .null (.union ts) .nil
  | union {j ts t v} : ts[0]? = some t → t ≠ .null → DefaultMeans env lim j t v →
      DefaultMeans env lim j (.union ts) (.union 0 (some v))
  /-- condition: a field with a default of its own that is given another one is no map and no record -/
  | record {kvs : List (Str × Json)} {q d fs} {vs : List Val} : env.find q = some d → d.kind = .record fs →
      (kvs.map Prod.fst).Nodup → (∀ kv ∈ kvs, ∃ f ∈ fs, f.name = kv.1) → fs.length = vs.length →
      (∀ f ∈ fs, (f.given kvs).isSome) →
      (∀ (i : Nat) f v j, fs[i]? = some f → vs[i]? = some v → f.given kvs = some j → DefaultMeans env lim j f.ty v) →
      (lim = true → ∀ f ∈ fs, (member kvs f.name).isSome → f.dflt.isSome → ¬Merged env f.ty) →
      DefaultMeans env lim (.obj kvs) (.ref q) (.record vs)

/-- The conditions only restrict. -/
theorem DefaultMeans.avro {env : Env} {lim : Bool} {j : Json} {t : Ty} {v : Val} (h : DefaultMeans env lim j t v) :
    DefaultMeans env false j t v := by
  induction h with
  | null => exact .null
  | bool => exact .bool
  | int h1 h2 => exact .int h1 h2
  | long h1 h2 _ => exact .long h1 h2 nofun
  | float h1 h2 _ => exact .float h1 h2 nofun
  | double h1 h2 => exact .double h1 h2
  | bytes h => exact .bytes h
  | string => exact .string
  | enum h1 h2 h3 => exact .enum h1 h2 h3
  | fixed h1 h2 h3 h4 _ => exact .fixed h1 h2 h3 h4 nofun
  | array h1 _ ih => exact .array h1 ih
  | map h1 h2 _ _ ih => exact .map h1 h2 ih nofun
  | unionNull h => exact .unionNull h
  | union h1 h2 _ ih => exact .union h1 h2 ih
  | record h1 h2 h3 h4 h5 h6 _ _ ih => exact .record h1 h2 h3 h4 h5 h6 ih nofun

end Verif
