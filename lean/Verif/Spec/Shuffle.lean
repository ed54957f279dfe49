import Verif.Spec.Default
/-
The same JSON value with the members of its objects in another order.
-/
namespace Verif

/-- `j'` is `j` with the members of the objects in it in any order: the order in which Go walks a
`map[string]interface{}` is random. -/
inductive Shuffled : Json → Json → Prop
  | refl {j} : Shuffled j j
  | arr {js js' : List Json} : js.length = js'.length →
      (∀ (i : Nat) j j', js[i]? = some j → js'[i]? = some j' → Shuffled j j') → Shuffled (.arr js) (.arr js')
  /-- first inside the members, then the members -/
  | obj {kvs mid kvs' : List (Str × Json)} : kvs.map Prod.fst = mid.map Prod.fst →
      (∀ (i : Nat) x y, kvs[i]? = some x → mid[i]? = some y → Shuffled x.2 y.2) → mid.Perm kvs' →
      Shuffled (.obj kvs) (.obj kvs')

/-- The same field, its default in another order. -/
structure Field.Shuffled (f f' : Field) : Prop where
  name : f.name = f'.name
  aliases : f.aliases = f'.aliases
  ty : f.ty = f'.ty
  dflt : (f.dflt = none ∧ f'.dflt = none) ∨ ∃ j j', f.dflt = some j ∧ f'.dflt = some j' ∧ Verif.Shuffled j j'

/-- The same fields, the defaults in another order. -/
inductive FieldsShuffled : List Field → List Field → Prop
  | nil : FieldsShuffled [] []
  | cons {f f' fs fs'} : f.Shuffled f' → FieldsShuffled fs fs' → FieldsShuffled (f :: fs) (f' :: fs')

/-- The same definition. -/
inductive KindShuffled : DefKind → DefKind → Prop
  | record {fs fs'} : FieldsShuffled fs fs' → KindShuffled (.record fs) (.record fs')
  | enum {ss d} : KindShuffled (.enum ss d) (.enum ss d)
  | fixed {n} : KindShuffled (.fixed n) (.fixed n)

/-- The same definitions, the defaults of the fields in another order. -/
def EnvShuffled (env env' : Env) : Prop :=
  ∀ q, (env.find q = none ∧ env'.find q = none) ∨
    ∃ d d', env.find q = some d ∧ env'.find q = some d' ∧ d.name = d'.name ∧ KindShuffled d.kind d'.kind

/-- Somewhere in the default `j` of a field of type `t` a key occurs twice, or two keys are
names of the same field. JSON values decoded by Go have no key twice. -/
inductive Ambiguous (env : Env) : Json → Ty → Prop
  | twice {kvs : List (Str × Json)} {t} : ¬(kvs.map Prod.fst).Nodup → Ambiguous env (.obj kvs) t
  | field {kvs : List (Str × Json)} {q d fs x y i f g} : env.find q = some d → d.kind = .record fs →
      x ∈ kvs → y ∈ kvs → x.1 ≠ y.1 → fieldByName fs x.1 = some (i, f) → fieldByName fs y.1 = some (i, g) →
      Ambiguous env (.obj kvs) (.ref q)
  | item {js j t} : j ∈ js → Ambiguous env j t → Ambiguous env (.arr js) (.array t)
  | value {kvs : List (Str × Json)} {x t} : x ∈ kvs → Ambiguous env x.2 t → Ambiguous env (.obj kvs) (.map t)
  | inner {kvs : List (Str × Json)} {q d fs x i f} : env.find q = some d → d.kind = .record fs → x ∈ kvs →
      fieldByName fs x.1 = some (i, f) → Ambiguous env x.2 f.ty → Ambiguous env (.obj kvs) (.ref q)
  | member {j ts t} : ts[0]? = some t → Ambiguous env j t → Ambiguous env j (.union ts)

/-- No default of a field is ambiguous. -/
def DefaultsClear (env : Env) : Prop :=
  ∀ q d fs f j, env.find q = some d → d.kind = .record fs → f ∈ fs → f.dflt = some j → ¬Ambiguous env j f.ty

end Verif
