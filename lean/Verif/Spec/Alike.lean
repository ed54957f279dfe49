import Verif.Spec.Reach
/-
Two schemas that describe the same data: the Avro specification ("Parsing Canonical Form for
Schemas") counts full names, types, fields with their names and order, symbols and sizes; it does not
count documentation, aliases, defaults and other attributes.
-/
namespace Verif.Spec
open Verif

/-- The types without parts. -/
def primitives : List Ty := [.null, .bool, .int, .long, .float, .double, .bytes, .string]

section
variable (e e' : Env)

mutual
/-- The same type, where names stand for definitions of the same full name. -/
inductive AlikeTy : Ty → Ty → Prop
  | prim {t} : t ∈ primitives → AlikeTy t t
  | array {t t'} : AlikeTy t t' → AlikeTy (.array t) (.array t')
  | map {t t'} : AlikeTy t t' → AlikeTy (.map t) (.map t')
  | union {ts ts'} : AlikeTys ts ts' → AlikeTy (.union ts) (.union ts')
  | ref {q q' d d'} : e.find q = some d → e'.find q' = some d' → d.name = d'.name →
      AlikeTy (.ref q) (.ref q')
inductive AlikeTys : List Ty → List Ty → Prop
  | nil : AlikeTys [] []
  | cons {t t' ts ts'} : AlikeTy t t' → AlikeTys ts ts' → AlikeTys (t :: ts) (t' :: ts')
end

/-- Fields of the same names, in the same order, with the same types. -/
inductive AlikeFields : List Field → List Field → Prop
  | nil : AlikeFields [] []
  | cons {f f' fs fs'} : f.name = f'.name → AlikeTy e e' f.ty f'.ty → AlikeFields fs fs' →
      AlikeFields (f :: fs) (f' :: fs')

/-- The same fields, the same symbols, or the same size. -/
inductive AlikeKind : DefKind → DefKind → Prop
  | record {fs fs'} : AlikeFields e e' fs fs' → AlikeKind (.record fs) (.record fs')
  | enum {ss d d'} : AlikeKind (.enum ss d) (.enum ss d')
  | fixed {n} : AlikeKind (.fixed n) (.fixed n)
end

/-- The schemas differ at most in what does not count. -/
structure Alike (s s' : Schema) : Prop where
  root : AlikeTy s.env s'.env s.root s'.root
  defs : ∀ q, Reachable s q → ∀ d, s.env.find q = some d →
    ∀ q' d', s'.env.find q' = some d' → d'.name = d.name → AlikeKind s.env s'.env d.kind d'.kind

end Verif.Spec
