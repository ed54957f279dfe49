import Verif.Gen.Default
/-
What a record holds that comes from its constructor: Go's zero values, and what a field without default gets.
-/
namespace Verif.Spec
open Verif

/-- A Go variable of the type contains a variable of the type named `q`: arrays, maps and unions with null
(which are pointers) contain nothing. -/
inductive ByValue : Ty → QName → Prop
  | ref {q} : ByValue (.ref q) q
  | union {ts t q} : (∀ u ∈ ts, u ≠ .null) → t ∈ ts → ByValue t q → ByValue (.union ts) q

/-- No record contains itself, as Go requires of its types. -/
def Sized (env : Env) : Prop :=
  ∃ rank : QName → Nat, ∀ q d fs f q', env.find q = some d → d.kind = .record fs → f ∈ fs → ByValue f.ty q' → rank q' < rank q

/-- The zero value of the Go type: slices and maps are nil and count as empty, unions with null are nil, a union
without null has all members zero and the number of the first in `UnionType`. -/
inductive Zero (env : Env) : Ty → Val → Prop
  | null : Zero env .null .null
  | bool : Zero env .bool (.bool false)
  | int : Zero env .int (.int 0)
  | long : Zero env .long (.long 0)
  | float : Zero env .float (.float 0)
  | double : Zero env .double (.double 0)
  | bytes : Zero env .bytes (.bytes [])
  | string : Zero env .string (.string [])
  | array {t} : Zero env (.array t) (.array [])
  | map {t} : Zero env (.map t) (.map [])
  | pointer {ts} : .null ∈ ts → Zero env (.union ts) .nil
  | union {t ts v} : .null ∉ t :: ts → Zero env t v → Zero env (.union (t :: ts)) (.union 0 (some v))
  | enum {q d ss e} : env.find q = some d → d.kind = .enum ss e → Zero env (.ref q) (.enum 0)
  | fixed {q d n} : env.find q = some d → d.kind = .fixed n → Zero env (.ref q) (.fixed (List.replicate n.toNat 0))
  | record {q d fs vs} : env.find q = some d → d.kind = .record fs → vs.length = fs.length →
      (∀ (i : Nat) f v, fs[i]? = some f → vs[i]? = some v → Zero env f.ty v) → Zero env (.ref q) (.record vs)

/-- `.union tag none` is a union struct in which no member was assigned yet. In Go its members are zero, and so the
same value can be written with the member that `tag` names set to zero. `Shown v t w`: `w` is `v` with members written
that way. -/
inductive Shown (env : Env) : Val → Ty → Val → Prop
  | same {v t} : Shown env v t v
  | unset {tag ts u w} : ts[tag.toNat]? = some u → Zero env u w → Shown env (.union tag none) (.union ts) (.union tag (some w))
  | member {tag ts u v w} : ts[tag.toNat]? = some u → Shown env v u w →
      Shown env (.union tag (some v)) (.union ts) (.union tag (some w))
  | array {t vs ws} : vs.length = ws.length → (∀ (i : Nat) v w, vs[i]? = some v → ws[i]? = some w → Shown env v t w) →
      Shown env (.array vs) (.array t) (.array ws)
  | map {t vs ws} : vs.map Prod.fst = ws.map Prod.fst →
      (∀ (i : Nat) v w, vs[i]? = some v → ws[i]? = some w → Shown env v.2 t w.2) → Shown env (.map vs) (.map t) (.map ws)
  | record {q d fs vs ws} : env.find q = some d → d.kind = .record fs → vs.length = fs.length → ws.length = fs.length →
      (∀ (i : Nat) f v w, fs[i]? = some f → vs[i]? = some v → ws[i]? = some w → Shown env v f.ty w) →
      Shown env (.record vs) (.ref q) (.record ws)

/-- What a field without default holds after the constructor; `New q vs`: the constructor of `q` returns a record of
`vs`. A union that has null first is nil; other unions, with null or without, are new structs, which stand for
their first member. -/
inductive Initial (env : Env) (New : QName → List Val → Prop) : Ty → Val → Prop
  | null : Initial env New .null .null
  | bool : Initial env New .bool (.bool false)
  | int : Initial env New .int (.int 0)
  | long : Initial env New .long (.long 0)
  | float : Initial env New .float (.float 0)
  | double : Initial env New .double (.double 0)
  | bytes : Initial env New .bytes (.bytes [])
  | string : Initial env New .string (.string [])
  | array {t} : Initial env New (.array t) (.array [])
  | map {t} : Initial env New (.map t) (.map [])
  | nil {ts} : ts.head? = some .null → Initial env New (.union ts) .nil
  | union {ts} : ts.head? ≠ some .null → Initial env New (.union ts) (.union 0 none)
  | enum {q d ss e} : env.find q = some d → d.kind = .enum ss e → Initial env New (.ref q) (.enum 0)
  | fixed {q d n} : env.find q = some d → d.kind = .fixed n → Initial env New (.ref q) (.fixed (List.replicate n.toNat 0))
  | record {q d fs vs} : env.find q = some d → d.kind = .record fs → New q vs → Initial env New (.ref q) (.record vs)

end Verif.Spec
