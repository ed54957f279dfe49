import Verif.Spec.Whole
import Verif.Gen.DefaultProof
import Verif.Gen.Serialize
/-
Constructors and defaults give whole values.
-/
namespace Verif
open Spec

variable {env : Env}

theorem wholeFields_get : ∀ {vs : List Val} {fs : List Field} {i : Nat} {f : Field}, WholeFields env vs fs → fs[i]? = some f →
    ∃ v, vs[i]? = some v ∧ Whole env v f.ty
  | [], fs, i, f, h, hf => by
    simp only [WholeFields] at h
    subst h; simp at hf
  | v :: vs, fs, i, f, h, hf => by
    simp only [WholeFields] at h
    obtain ⟨f', fs', rfl, h1, h2⟩ := h
    cases i with
    | zero => cases hf; exact ⟨v, rfl, h1⟩
    | succ i =>
      rw [List.getElem?_cons_succ] at hf
      obtain ⟨w, h3, h4⟩ := wholeFields_get h2 hf
      exact ⟨w, by rw [List.getElem?_cons_succ]; exact h3, h4⟩

theorem wholeFields_set : ∀ {vs : List Val} {fs : List Field} {i : Nat} {f : Field} {x : Val}, WholeFields env vs fs → fs[i]? = some f →
    Whole env x f.ty → WholeFields env (vs.set i x) fs
  | [], fs, i, f, x, h, hf, hx => by
    simp only [WholeFields] at h
    subst h; simp at hf
  | v :: vs, fs, i, f, x, h, hf, hx => by
    simp only [WholeFields] at h
    obtain ⟨f', fs', rfl, h1, h2⟩ := h
    cases i with
    | zero => cases hf; exact ⟨_, _, rfl, hx, h2⟩
    | succ i => exact ⟨_, _, rfl, h1, wholeFields_set h2 hf hx⟩

theorem wholeEntries_get : ∀ {m : List (List Byte × Val)} {t : Ty} {k : List Byte} {v : Val}, WholeEntries env m t → mapGet m k = some v →
    Whole env v t
  | [], _, _, _, _, hg => by cases hg
  | (k', w) :: m, t, k, v, h, hg => by
    simp only [mapGet] at hg
    split at hg
    · cases hg; exact h.1
    · exact wholeEntries_get h.2 hg

theorem wholeEntries_insert : ∀ {m : List (List Byte × Val)} {t : Ty} {k : List Byte} {v : Val}, WholeEntries env m t → Whole env v t →
    WholeEntries env (mapInsert k v m) t
  | [], _, _, _, _, hv => ⟨hv, trivial⟩
  | (k', w) :: m, t, k, v, h, hv => by
    simp only [mapInsert]
    split
    · exact ⟨hv, h.2⟩
    · split
      · exact ⟨hv, h⟩
      · exact ⟨h.1, wholeEntries_insert h.2 hv⟩

/-- The same of what may not be there. -/
def WholeAt (env : Env) (c : Option Val) (t : Ty) : Prop := ∀ v, c = some v → Whole env v t

theorem WholeAt.some {v : Val} {t : Ty} (h : Whole env v t) : WholeAt env (some v) t := fun _ e => by cases e; exact h
theorem WholeAt.none {t : Ty} : WholeAt env none t := fun _ e => by cases e

theorem applyEntries_whole {ap : Json → Option Val → Made (Option Val)} {it : Ty}
    (h : ∀ j c r, ap j c = .ok r → WholeAt env c it → WholeAt env r it) : ∀ {kvs : List (Str × Json)} {m m' : List (List Byte × Val)},
    applyEntries ap kvs m = .ok m' → Sorted m → WholeEntries env m it → Sorted m' ∧ WholeEntries env m' it
  | [], m, m', e, hs, hw => by cases e; exact ⟨hs, hw⟩
  | (k, j) :: kvs, m, m', e, hs, hw => by
    obtain ⟨o, h1, h2⟩ := bind_ok e
    have ho := h _ _ _ h1 fun v hv => wholeEntries_get hw hv
    cases o with
    | none => exact applyEntries_whole h h2 hs hw
    | some v => exact applyEntries_whole h h2 (sorted_insert _ _ hs) (wholeEntries_insert hw (ho v rfl))

theorem applyFields_whole {fs : List Field} {ap : Json → Ty → Option Val → Made (Option Val)}
    (h : ∀ j t c r, ap j t c = .ok r → WholeAt env c t → WholeAt env r t) : ∀ {kvs : List (Str × Json)} {vs vs' : List Val},
    applyFields fs ap kvs vs = .ok vs' → WholeFields env vs fs → WholeFields env vs' fs
  | [], vs, vs', e, hw => by cases e; exact hw
  | (k, j) :: kvs, vs, vs', e, hw => by
    simp only [applyFields] at e
    cases hf : fieldByName fs k with
    | none => rw [hf] at e; cases e
    | some x =>
      obtain ⟨i, f⟩ := x
      rw [hf] at e
      dsimp only at e
      obtain ⟨v, h1, h2⟩ := bind_ok e
      have hi := (fieldByName_getElem hf)
      obtain ⟨v0, e0, h1⟩ := bind_ok h1
      obtain ⟨o, h1, h3⟩ := bind_ok h1
      obtain ⟨w, hw1, hw2⟩ := wholeFields_get hw hi
      have := present_ok e0
      rw [hw1] at this
      cases this
      have := present_ok h3
      subst this
      exact applyFields_whole h h2 (wholeFields_set hw hi (h _ _ _ _ h1 (.some hw2) v rfl))

theorem newFields_whole {mk : Ty → Made Val} {ap : Json → Ty → Option Val → Made (Option Val)}
    (h1 : ∀ t v, mk t = .ok v → Whole env v t) (h2 : ∀ j t c r, ap j t c = .ok r → WholeAt env c t → WholeAt env r t) :
    ∀ {fs : List Field} {vs : List Val}, newFields mk ap fs = .ok vs → WholeFields env vs fs
  | [], vs, e => by cases e; rfl
  | f :: fs, vs, e => by
    obtain ⟨v0, e0, e⟩ := bind_ok e
    obtain ⟨v, e1, e⟩ := bind_ok e
    obtain ⟨vs', e2, e⟩ := bind_ok e
    cases e
    refine ⟨_, _, rfl, ?_, newFields_whole h1 h2 e2⟩
    have h0 : Whole env v0 f.ty := by
      unfold freshField at e0
      split at e0
      · cases e0; trivial
      · exact h1 _ _ e0
    unfold fieldDefault at e1
    cases hd : f.dflt with
    | none => rw [hd] at e1; cases e1; exact h0
    | some j =>
      rw [hd] at e1
      obtain ⟨o, e3, e4⟩ := bind_ok e1
      have := present_ok e4
      subst this
      exact h2 _ _ _ _ e3 (.some h0) v rfl

theorem default_whole (nm : Namer) (env : Env) : ∀ n,
    (∀ t v, construct nm env n t = .ok v → Whole env v t) ∧
    (∀ j t a c r, applyDefault nm env n j t a c = .ok r → WholeAt env c t → WholeAt env r t) := by
  intro n
  induction n with
  | zero => exact ⟨fun t v h => (by cases h), fun j t a c r h => (by cases h)⟩
  | succ n ih =>
    obtain ⟨ih1, ih2⟩ := ih
    constructor
    · intro t v h
      cases t with
      | ref q =>
        simp only [construct] at h
        cases hq : env.find q with
        | none => rw [hq] at h; cases h
        | some d =>
          rw [hq] at h
          dsimp only at h
          cases hk : d.kind with
          | record fs =>
            rw [hk] at h
            dsimp only at h
            obtain ⟨vs, e, rfl⟩ := map_ok h
            have := newFields_whole (env := env) ih1 (fun j t c r h => ih2 j t true c r h) e
            intro q' d' fs' e1 e2 e3
            cases e1
            rw [hq] at e2; cases e2
            rw [hk] at e3; cases e3
            exact this
          | enum s e => rw [hk] at h; simp only [zeroVal, hq, hk] at h; cases h; trivial
          | fixed k => rw [hk] at h; simp only [zeroVal, hq, hk] at h; cases h; trivial
      | map t => cases h; intro it e; exact ⟨List.Pairwise.nil, trivial⟩
      | _ => cases h; trivial
    · intro j t a c r h hc
      cases t with
      | null => cases h; exact hc
      | bool => cases j <;> cases h; exact .some trivial
      | int => obtain ⟨v, -, rfl⟩ := map_ok h; exact .some trivial
      | long => obtain ⟨v, -, rfl⟩ := map_ok h; exact .some trivial
      | float => obtain ⟨v, -, rfl⟩ := map_ok h; exact .some trivial
      | double => obtain ⟨v, -, rfl⟩ := map_ok h; exact .some trivial
      | bytes => cases j <;> cases h; exact .some trivial
      | string => cases j <;> cases h; exact .some trivial
      | array it =>
        cases j with
        | arr js => obtain ⟨v, -, rfl⟩ := map_ok h; exact .some trivial
        | _ => cases h
      | map it =>
        cases j with
        | obj kvs =>
          have no : ∀ x : Made (Option Val), x = (applyNilMap (fun j => applyDefault nm env n j it false none) kvs).map (fun _ => c) → x = .ok r →
              WholeAt env r (.map it) := by
            intro x e1 e2
            rw [e1] at e2
            obtain ⟨_, -, rfl⟩ := map_ok e2
            exact hc
          cases c with
          | none => exact no _ rfl h
          | some c => cases c with
            | map m =>
              simp only [applyDefault] at h
              obtain ⟨m', e, rfl⟩ := map_ok h
              obtain ⟨h1, h2⟩ := hc _ rfl it rfl
              have := applyEntries_whole (env := env) (it := it) (fun j c r h => ih2 j it false c r h) e h1 h2
              exact .some fun it' e => by cases e; exact this
            | _ => exact no _ rfl h
        | _ => cases h
      | union ts =>
        cases ts with
        | nil => cases h
        | cons u ts =>
          simp only [applyDefault] at h
          split at h
          · cases h; exact .some trivial
          · split at h
            · cases h
            · obtain ⟨v0, -, h⟩ := bind_ok h
              obtain ⟨v, -, h⟩ := bind_ok h
              cases h
              exact .some trivial
      | ref q =>
        simp only [applyDefault] at h
        cases hq : env.find q with
        | none => rw [hq] at h; cases h
        | some d =>
          rw [hq] at h
          dsimp only at h
          cases hk : d.kind with
          | enum s e =>
            rw [hk] at h
            dsimp only at h
            cases j with
            | str s => obtain ⟨v, -, rfl⟩ := map_ok h; exact .some trivial
            | _ => cases h
          | fixed k =>
            rw [hk] at h
            dsimp only at h
            cases j with
            | str s =>
              cases a with
              | false => cases h
              | true => cases c with
                | none => cases h
                | some c => cases c <;> cases h; exact .some trivial
            | _ => cases h
          | record fs =>
            rw [hk] at h
            dsimp only at h
            cases j with
            | obj kvs =>
              have no : ∀ x : Made (Option Val), x = (applyEntryFields fs (fun j t => applyDefault nm env n j t false none) kvs).map (fun _ => c) → x = .ok r →
                  WholeAt env r (.ref q) := by
                intro x e1 e2
                rw [e1] at e2
                obtain ⟨_, -, rfl⟩ := map_ok e2
                exact hc
              cases a with
              | false => exact no _ rfl h
              | true => cases c with
                | none => exact no _ rfl h
                | some c => cases c with
                  | record vs =>
                    dsimp only at h
                    obtain ⟨vs', e, rfl⟩ := map_ok h
                    have := applyFields_whole (env := env) (fun j t c r h => ih2 j t true c r h) e (hc _ rfl q d fs rfl hq hk)
                    refine .some fun q' d' fs' e1 e2 e3 => ?_
                    cases e1
                    rw [hq] at e2; cases e2
                    rw [hk] at e3; cases e3
                    exact this
                  | _ => exact no _ rfl h
            | _ => cases h

mutual
/-- Values of a type are whole. -/
theorem whole_of_hasTy {lim : Nat} : ∀ {v : Val} {t : Ty}, HasTy env lim v t → Whole env v t
  | .map m, t, h => by
    obtain ⟨it, rfl, -, h1, h2⟩ := h
    intro it' e; cases e
    exact ⟨h1, wholeEntries_of_hasTy h2⟩
  | .record vs, t, h => by
    obtain ⟨q, d, fs, rfl, hq, hk, h⟩ := h
    intro q' d' fs' e1 e2 e3
    cases e1
    rw [hq] at e2; cases e2
    rw [hk] at e3; cases e3
    exact wholeFields_of_hasTy h
  | .null, _, _ | .bool _, _, _ | .int _, _, _ | .long _, _, _ | .float _, _, _ | .double _, _, _ | .bytes _, _, _ | .string _, _, _
  | .fixed _, _, _ | .enum _, _, _ | .array _, _, _ | .nil, _, _ | .union _ _, _, _ => by trivial
theorem wholeEntries_of_hasTy {lim : Nat} : ∀ {m : List (List Byte × Val)} {t : Ty}, EntriesHaveTy env lim m t → WholeEntries env m t
  | [], _, _ => trivial
  | (_, _) :: _, _, h => ⟨whole_of_hasTy h.2.1, wholeEntries_of_hasTy h.2.2⟩
theorem wholeFields_of_hasTy {lim : Nat} : ∀ {vs : List Val} {fs : List Field}, FieldsHaveTy env lim vs fs → WholeFields env vs fs
  | [], _, h => h
  | _ :: _, _, h => by
    obtain ⟨f, fs', e, h1, h2⟩ := h
    exact ⟨f, fs', e, whole_of_hasTy h1, wholeFields_of_hasTy h2⟩
end

end Verif
