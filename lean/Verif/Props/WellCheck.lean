import Verif.Props.Check
import Verif.Props.Run
import Verif.Props.Sample
/-
A check for `WellFormed` on concrete schemas.
-/
namespace Verif.Props
open Verif
set_option linter.unusedSimpArgs false
set_option linter.unusedVariables false

mutual
def closedB (env : Env) : Ty → Bool
  | .array t => closedB env t
  | .map t => closedB env t
  | .union ts => !ts.isEmpty && decide (ts.map (Ty.goName env)).Nodup && allClosedB env ts
  | .ref q => (env.find q).isSome
  | _ => true
def allClosedB (env : Env) : List Ty → Bool
  | [] => true
  | t :: ts => closedB env t && allClosedB env ts
end

mutual
theorem closed_of {env : Env} : ∀ t : Ty, closedB env t = true → t.Closed env
  | .null, _ => trivial
  | .bool, _ => trivial
  | .int, _ => trivial
  | .long, _ => trivial
  | .float, _ => trivial
  | .double, _ => trivial
  | .bytes, _ => trivial
  | .string, _ => trivial
  | .array t, h => by simp only [closedB] at h; exact closed_of t h
  | .map t, h => by simp only [closedB] at h; exact closed_of t h
  | .union ts, h => by
    simp only [closedB, Bool.and_eq_true, Bool.not_eq_true', List.isEmpty_eq_false_iff, decide_eq_true_eq] at h
    exact ⟨h.1.1, h.1.2, allClosed_of ts h.2⟩
  | .ref q, h => by
    simp only [closedB, Option.isSome_iff_exists] at h
    exact h
theorem allClosed_of {env : Env} : ∀ ts : List Ty, allClosedB env ts = true → Ty.AllClosed env ts
  | [], _ => trivial
  | t :: ts, h => by
    simp only [allClosedB, Bool.and_eq_true] at h
    exact ⟨closed_of t h.1, allClosed_of ts h.2⟩
end

def symbolsB (env : Env) : Bool := env.all fun x => match x.2.kind with
  | .enum ss _ => decide ss.Nodup
  | _ => true

def wellFormedB (s : Schema) (rank : QName → Nat) : Bool :=
  plainB s s && s.env.all (fun x => apartB (DefKind.fields x.2.kind)) && symbolsB s.env &&
  s.env.all (fun x => (DefKind.fields x.2.kind).all fun f => closedB s.env f.ty) && closedB s.env s.root &&
  groundedB s.env rank

theorem wellFormed_of {s : Schema} (rank : QName → Nat) (h : wellFormedB s rank = true) : WellFormed s := by
  simp only [wellFormedB, Bool.and_eq_true] at h
  obtain ⟨⟨⟨⟨⟨h1, h2⟩, h3⟩, h4⟩, h5⟩, h6⟩ := h
  have hfields : FieldsClosed s.env := by
    intro q d fs f hq hk hf
    have := List.all_eq_true.1 h4 _ (Env.find_mem hq)
    rw [hk] at this
    exact closed_of _ (List.all_eq_true.1 this f hf)
  have hapart : FieldsApart s.env := by
    intro q d fs hq hk
    have := List.all_eq_true.1 h2 _ (Env.find_mem hq)
    rw [hk] at this
    exact apart_of this
  have hs := suited_plain h1 (nullsAgree_self hapart hfields (closed_of _ h5))
  exact {
    names := hs.namesW, sizes := hs.sizes, tidyFields := hs.tidyW, tidyRoot := hs.rootW, distinct := hs.distinct,
    aliases := hs.one, plain := hs.plain, top := hs.top
    apart := hapart
    symbols := by
      intro q d ss df hq hk
      have := List.all_eq_true.1 h3 _ (Env.find_mem hq)
      simp only [hk, decide_eq_true_eq] at this
      exact this
    closedFields := hfields
    closedRoot := closed_of _ h5
    grounded := grounded_of rank h6 }

end Verif.Props
