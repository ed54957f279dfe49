import Verif.Schema.Types
/-
Following a schema from its root.
-/
namespace Verif.Spec
open Verif

/-- The type names `q`. -/
inductive TyMentions : Ty → QName → Prop
  | ref {q} : TyMentions (.ref q) q
  | array {t q} : TyMentions t q → TyMentions (.array t) q
  | map {t q} : TyMentions t q → TyMentions (.map t) q
  | union {ts t q} : t ∈ ts → TyMentions t q → TyMentions (.union ts) q

/-- The named types met when following a schema from its root. -/
inductive Reachable (s : Schema) : QName → Prop
  | root {q} : TyMentions s.root q → Reachable s q
  | field {q d fs f q'} : Reachable s q → s.env.find q = some d → d.kind = .record fs → f ∈ fs →
      TyMentions f.ty q' → Reachable s q'

end Verif.Spec
