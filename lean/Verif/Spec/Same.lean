import Verif.Spec.Alike
import Verif.Spec.SchemaDoc
/-
Two schemas that mean the same to a program: they agree in everything but documentation and the way
they are written.
-/
namespace Verif.Spec
open Verif

section
variable (e e' : Env)

/-- Fields of the same names, aliases and defaults, in the same order, with the same types. -/
inductive SameFields : List Field → List Field → Prop
  | nil : SameFields [] []
  | cons {f f' fs fs'} : f.name = f'.name → f.aliases = f'.aliases → f.dflt = f'.dflt → AlikeTy e e' f.ty f'.ty →
      SameFields fs fs' → SameFields (f :: fs) (f' :: fs')

/-- The same fields, the same symbols with the same default, or the same size. -/
inductive SameBody : DefKind → DefKind → Prop
  | record {fs fs'} : SameFields e e' fs fs' → SameBody (.record fs) (.record fs')
  | enum {ss d} : SameBody (.enum ss d) (.enum ss d)
  | fixed {n} : SameBody (.fixed n) (.fixed n)
end

/-- The schemas have the same type at the root, and the definitions it leads to have the same names,
aliases and contents. -/
structure Same (s s' : Schema) : Prop where
  root : AlikeTy s.env s'.env s.root s'.root
  defs : ∀ q, Reachable s q → ∀ d, s.env.find q = some d →
    ∀ q' d', s'.env.find q' = some d' → d'.name = d.name → d'.aliases = d.aliases ∧
      SameBody s.env s'.env d.kind d'.kind

/-- A definition that may be moved to the namespace `ns`: there, its text still gives its name and its
aliases, and its full name still refers to it. -/
structure Movable (ns : Str) (d : PDef) : Prop where
  name : NameOf ns d.defn d.name
  -- the aliases of records and fixed types belong to the namespace of the type itself
  aliases : ∀ ss doc dflt, d.kind = .enum ss doc dflt → AliasesOf ns d.defn d.aliases
  full : FullName ns d.name.str d.name
  notPrim : ∀ p, (d.name.str, p) ∉ primNames

/-- The definitions a definition leads to through the fields of records, itself included. `find` gives
the definition of a name. -/
inductive Leads (find : QName → Option PDef) (d : PDef) : PDef → Prop
  | self : Leads find d d
  | field {e e' fs doc f q} : Leads find d e → e.kind = .record fs doc → f ∈ fs → Mentions f.ty q → find q = some e' →
      Leads find d e'

/-- Whatever the fields of the record `e` mention may be moved to the namespace of `e`. -/
def FieldsMovable (find : QName → Option PDef) (e : PDef) : Prop :=
  ∀ fs doc, e.kind = .record fs doc → ∀ f ∈ fs, ∀ q, Mentions f.ty q → ∀ e', find q = some e' → Movable e.name.ns e'

end Verif.Spec
