import Verif.Gen.DefaultCode
import Verif.Gen.DefaultProof
import Verif.Gen.MethodsRun
/-
What the statements of Gen/DefaultCode do: statements about a part of a variable change that part as the statements
about the part alone do.
-/
namespace Verif
open Spec Spec.Go Spec.GoD

variable {P : Spec.GoD.Package} {new : PTy → Made Val}

theorem run_append (L R : Sts) (t : PTy) (a : Bool) : ∀ cur, run P new (L ++ R) t a cur = run P new L t a cur >>= run P new R t a := by
  induction L with
  | nil => intro cur; rfl
  | cons s L ih =>
    intro cur
    simp only [List.cons_append, run]
    cases step P new s t a cur with
    | error e => rfl
    | ok v => exact ih (some v)

theorem run_some (L : Sts) {t : PTy} {a : Bool} : ∀ {v : Val} {r}, run P new L t a (some v) = .ok r → ∃ x, r = some x := by
  induction L with
  | nil => intro v r h; cases h; exact ⟨v, rfl⟩
  | cons s L ih =>
    intro v r h
    simp only [run] at h
    cases hs : step P new s t a (some v) with
    | error e => rw [hs] at h; cases h
    | ok x => rw [hs] at h; exact ih h

theorem run_cons_some {s : Spec.GoD.St} {L : Sts} {t : PTy} {a : Bool} {cur r} (h : run P new (s :: L) t a cur = .ok r) : ∃ x, r = some x := by
  simp only [run] at h
  cases hs : step P new s t a cur with
  | error e => rw [hs] at h; cases h
  | ok x => rw [hs] at h; exact run_some L h

theorem run_none {L : Sts} {t : PTy} {a : Bool} (h : run P new L t a none = .ok none) : L = [] := by
  cases L with
  | nil => rfl
  | cons s L => obtain ⟨x, hx⟩ := run_cons_some h; cases hx

theorem step_under (g : Seg) (s : Spec.GoD.St) : step P new (s.under g) = change1 P g (step P new s) := by
  cases s <;> rfl

/-! ### Items -/

theorem run_item (it : PTy) (d : Json) (a : Bool) (i : Nat) (L : Sts) : ∀ (vs : List Val) (v : Val), vs[i]? = some v →
    run P new (L.map (.under (.item i))) (.array it d) a (some (.array vs)) =
      (run P new L it true (some v) >>= present).map fun x => some (.array (vs.set i x)) := by
  induction L with
  | nil =>
    intro vs v hv
    obtain ⟨h1, h2⟩ := List.getElem?_eq_some_iff.1 hv
    show Except.ok _ = Except.ok _
    subst h2; simp
  | cons s L ih =>
    intro vs v hv
    obtain ⟨h1, h2⟩ := List.getElem?_eq_some_iff.1 hv
    simp only [List.map_cons, run, step_under, change1, changeItem, hv]
    cases step P new s it true (some v) with
    | error e => rfl
    | ok x =>
      dsimp only
      rw [ih (vs.set i x) x (List.getElem?_set_self h1)]
      simp only [List.set_set]

/-! ### Fields of a record -/

theorem named_at {α : Type} {x : Str} {a : α} : ∀ {l : List (Str × α)} {k i : Nat}, (l.map Prod.fst).Nodup → l[i]? = some (x, a) →
    named x k l = some (k + i, a)
  | [], k, i, _, h => by simp at h
  | (y, b) :: l, k, 0, _, h => by cases h; simp [named]
  | (y, b) :: l, k, i + 1, hn, h => by
    rw [List.map_cons, List.nodup_cons] at hn
    rw [List.getElem?_cons_succ] at h
    have hne : y ≠ x := fun e => hn.1 (e ▸ List.mem_map.2 ⟨_, List.mem_iff_getElem?.2 ⟨i, h⟩, rfl⟩)
    rw [named, if_neg hne, named_at hn.2 h]
    congr 2; omega

theorem run_field {q : QName} {d : PDef} {fs : List PField} {doc : Str} (hq : P.n.find q = some d) (hk : d.kind = .record fs doc)
    (hn : (fs.map fun f => fieldGoName P.nm f.name).Nodup) {i : Nat} {f : PField} (hf : fs[i]? = some f) (L : Sts) :
    ∀ (vs : List Val) (v : Val), vs[i]? = some v →
    run P new (L.map (.under (.field (fieldGoName P.nm f.name)))) (.ref q) true (some (.record vs)) =
      (run P new L f.ty true (some v) >>= present).map fun x => some (.record (vs.set i x)) := by
  have hname : named (fieldGoName P.nm f.name) 0 (fs.map fun f => (fieldGoName P.nm f.name, f.ty)) = some (i, f.ty) := by
    have := named_at (x := fieldGoName P.nm f.name) (a := f.ty) (l := fs.map fun f => (fieldGoName P.nm f.name, f.ty)) (k := 0) (i := i)
      (by rw [List.map_map]; exact hn) (by rw [List.getElem?_map, hf]; rfl)
    rw [this, Nat.zero_add]
  induction L with
  | nil =>
    intro vs v hv
    obtain ⟨h1, h2⟩ := List.getElem?_eq_some_iff.1 hv
    show Except.ok _ = Except.ok _
    subst h2; simp
  | cons s L ih =>
    intro vs v hv
    obtain ⟨h1, h2⟩ := List.getElem?_eq_some_iff.1 hv
    simp only [List.map_cons, run, step_under, change1, changeField, hq, hk, hname, if_true, hv]
    cases step P new s f.ty true (some v) with
    | error e => rfl
    | ok x =>
      dsimp only
      rw [ih (vs.set i x) x (List.getElem?_set_self h1)]
      simp only [List.set_set]

/-- A part of a record in a map entry, or of no record, cannot be set. -/
theorem run_field_not {q : QName} {name : Str} {L : Sts} {a : Bool} {cur r : Option Val} (h : a = true → ∀ vs, cur ≠ some (.record vs))
    (hr : run P new (L.map (.under (.field name))) (.ref q) a cur = .ok r) : L = [] ∧ r = cur := by
  cases L with
  | nil => cases hr; exact ⟨rfl, rfl⟩
  | cons s L =>
    exfalso
    simp only [List.map_cons, run, step_under, change1, changeField] at hr
    cases hq : P.n.find q with
    | none => rw [hq] at hr; cases hr
    | some d =>
      rw [hq] at hr
      dsimp only at hr
      cases hk : d.kind with
      | record fs doc =>
        rw [hk] at hr
        dsimp only at hr
        cases a with
        | false => cases hr
        | true =>
          rw [if_pos rfl] at hr
          cases hm : named name 0 (fs.map fun f => (fieldGoName P.nm f.name, f.ty)) with
          | none => rw [hm] at hr; cases hr
          | some x =>
            rw [hm] at hr
            dsimp only at hr
            cases cur with
            | none => cases hr
            | some c => cases c with
              | record vs => exact h rfl vs rfl
              | _ => cases hr
      | enum s e v => rw [hk] at hr; cases hr
      | fixed k => rw [hk] at hr; cases hr

/-! ### The first member of a union -/

theorem run_member (name : Str) (u : PTy) (ts : List PTy) (d : List Json) (a : Bool) (s : Spec.GoD.St) (L : Sts) : ∀ (x : Option Val),
    run P new ((s :: L).map (.under (.field (u.goName P.nm P.n)))) (.union name (u :: ts) d) a (some (.union 0 x)) =
      if a = false ∧ (u :: ts).any nullTy = false then .error .build else
        (run P new (s :: L) u true (some (x.getD (zero P u))) >>= present).map fun v => some (.union 0 (some v)) := by
  by_cases hc : a = false ∧ (u :: ts).any nullTy = false
  · intro x
    rw [if_pos hc]
    simp only [List.map_cons, run, step_under, change1, changeField]
    rw [if_pos hc]
  · simp only [if_neg hc]
    induction L generalizing s with
    | nil =>
      intro x
      simp only [List.map_cons, List.map_nil, run, step_under, change1, changeField]
      rw [if_neg hc]
      simp only [named, if_true]
      cases step P new s u true (some (x.getD (zero P u))) with
      | error e => rfl
      | ok v => rfl
    | cons s' L ih =>
      intro x
      rw [List.map_cons]
      unfold run
      simp only [step_under, change1, changeField]
      rw [if_neg hc]
      simp only [List.map_cons, named, if_true]
      cases step P new s u true (some (x.getD (zero P u))) with
      | error e => rfl
      | ok v => exact ih s' (some v)

/-! ### Entries of a map -/

theorem mapInsert_twice {k : List Byte} {u v : Val} : ∀ m : List (List Byte × Val), mapInsert k v (mapInsert k u m) = mapInsert k v m
  | [] => by simp [mapInsert]
  | (k', w) :: m => by
    simp only [mapInsert]
    by_cases h : k = k'
    · subst h; simp [mapInsert]
    · rw [if_neg h, if_neg h]
      by_cases h2 : keyLt k k' = true
      · rw [if_pos h2, if_pos h2, mapInsert, if_pos rfl]
      · rw [if_neg h2, if_neg h2, mapInsert, if_neg h, if_neg h2, mapInsert_twice m]

theorem mapInsert_same {k : List Byte} {v : Val} {m : List (List Byte × Val)} (hm : Sorted m) (h : mapGet m k = some v) : mapInsert k v m = m := by
  refine sorted_ext (sorted_insert k v hm) hm fun k' => ?_
  rw [mapGet_insert]
  split
  · rename_i e; subst e; exact h.symm
  · rfl

/-- An entry of a map after a statement. -/
def put (k : List Byte) (m : List (List Byte × Val)) : Option Val → List (List Byte × Val)
  | some v => mapInsert k v m
  | none => m

theorem run_entry (it : PTy) (d : Json) (a : Bool) (k : List Byte) (L : Sts) : ∀ (m : List (List Byte × Val)), Sorted m →
    run P new (L.map (.under (.entry k))) (.map it d) a (some (.map m)) =
      (run P new L it false (mapGet m k)).map fun o => some (.map (put k m o)) := by
  induction L with
  | nil =>
    intro m hm
    show Except.ok _ = Except.ok _
    cases h : mapGet m k with
    | none => rfl
    | some v => simp only [put]; rw [mapInsert_same hm h]
  | cons s L ih =>
    intro m hm
    simp only [List.map_cons, run, step_under, change1, changeEntry]
    cases step P new s it false (mapGet m k) with
    | error e => rfl
    | ok x =>
      dsimp only
      rw [ih _ (sorted_insert k x hm), mapGet_insert, if_pos rfl]
      cases hr : run P new L it false (some x) with
      | error e => rfl
      | ok r =>
        obtain ⟨y, rfl⟩ := run_some L hr
        show Except.ok _ = Except.ok _
        simp only [put, mapInsert_twice]

theorem run_entry_not {it : PTy} {d : Json} {a : Bool} {k : List Byte} {L : Sts} {cur r : Option Val} (h : ∀ m, cur ≠ some (.map m))
    (hr : run P new (L.map (.under (.entry k))) (.map it d) a cur = .ok r) : L = [] ∧ r = cur := by
  cases L with
  | nil => cases hr; exact ⟨rfl, rfl⟩
  | cons s L =>
    exfalso
    simp only [List.map_cons, run, step_under, change1, changeEntry] at hr
    cases cur with
    | none => cases hs : step P new s it false none <;> rw [hs] at hr <;> cases hr
    | some c => cases c with
      | map m => exact h m rfl
      | _ => cases hs : step P new s it false none <;> rw [hs] at hr <;> cases hr

/-! ### More calls -/

theorem value_mono {new new' : PTy → Made Val} (h : ∀ t v, new t = .ok v → new' t = .ok v) {e : Rhs} {t : PTy} {a : Bool} {c : Option Val} {v : Val}
    (hv : value P new e t a c = .ok v) : value P new' e t a c = .ok v := by
  cases e with
  | new x =>
    cases x with
    | call f =>
      have hv' : (if f = newName (t.goName P.nm P.n) then new t else .error .build) = .ok v := by cases t <;> exact hv
      have : (if f = newName (t.goName P.nm P.n) then new' t else .error .build) = .ok v := by
        split at hv'
        · rename_i e; rw [if_pos e]; exact h _ _ hv'
        · cases hv'
      cases t <;> exact this
    | _ => cases t with
      | prim p d => cases p <;> exact hv
      | _ => exact hv
  | _ => cases t with
    | prim p d => cases p <;> exact hv
    | _ => exact hv

theorem change1_mono {f f' : Change} (h : ∀ t a c v, f t a c = .ok v → f' t a c = .ok v) {g : Seg} {t : PTy} {a : Bool} {c : Option Val} {v : Val}
    (hv : change1 P g f t a c = .ok v) : change1 P g f' t a c = .ok v := by
  cases g with
  | field name =>
    cases t with
    | ref q =>
      simp only [change1, changeField] at hv ⊢
      cases hq : P.n.find q with
      | none => rw [hq] at hv; cases hv
      | some d =>
        rw [hq] at hv
        dsimp only at hv ⊢
        cases hk : d.kind with
        | record fs doc =>
          rw [hk] at hv
          dsimp only at hv ⊢
          cases a with
          | false => cases hv
          | true =>
            rw [if_pos rfl] at hv ⊢
            cases hm : named name 0 (fs.map fun f => (fieldGoName P.nm f.name, f.ty)) with
            | none => rw [hm] at hv; cases hv
            | some x =>
              rw [hm] at hv
              dsimp only at hv ⊢
              cases c with
              | none => cases hv
              | some c => cases c with
                | record vs =>
                  dsimp only at hv ⊢
                  cases hi : vs[x.1]? with
                  | none => rw [hi] at hv; cases hv
                  | some w =>
                    rw [hi] at hv
                    dsimp only at hv ⊢
                    cases hf : f x.2 true (some w) with
                    | error e => rw [hf] at hv; cases hv
                    | ok y => rw [hf] at hv; rw [h _ _ _ _ hf]; exact hv
                | _ => cases hv
        | enum s e v => rw [hk] at hv; cases hv
        | fixed k => rw [hk] at hv; cases hv
    | union nme ts d =>
      simp only [change1, changeField] at hv ⊢
      by_cases hc : a = false ∧ ts.any nullTy = false
      · rw [if_pos hc] at hv; cases hv
      · rw [if_neg hc] at hv ⊢
        cases hm : named name 0 (ts.map fun t => (t.goName P.nm P.n, t)) with
        | none => rw [hm] at hv; cases hv
        | some x =>
          rw [hm] at hv
          dsimp only at hv ⊢
          cases c with
          | none => cases hv
          | some c => cases c with
            | union tag w =>
              dsimp only at hv ⊢
              by_cases ht : tag.toNat = x.1
              · rw [if_pos ht] at hv ⊢
                cases hf : f x.2 true (some (w.getD (zero P x.2))) with
                | error e => rw [hf] at hv; cases hv
                | ok y => rw [hf] at hv; rw [h _ _ _ _ hf]; exact hv
              · rw [if_neg ht] at hv; cases hv
            | _ => cases hv
    | _ => cases hv
  | item i =>
    cases t with
    | array it d =>
      cases c with
      | none => cases hv
      | some c => cases c with
        | array vs =>
          simp only [change1, changeItem] at hv ⊢
          cases hi : vs[i]? with
          | none => rw [hi] at hv; cases hv
          | some w =>
            rw [hi] at hv
            dsimp only at hv ⊢
            cases hf : f it true (some w) with
            | error e => rw [hf] at hv; cases hv
            | ok y => rw [hf] at hv; rw [h _ _ _ _ hf]; exact hv
        | _ => cases hv
    | _ => cases hv
  | entry k =>
    cases t with
    | map it d =>
      have no : ∀ r : Made Val, r = (match f it false none with | .error e => .error e | .ok _ => .error .panic) → r = .ok v → False := by
        intro r h1 h2
        rw [h1] at h2
        cases hf : f it false none <;> rw [hf] at h2 <;> cases h2
      cases c with
      | none => exact (no _ rfl hv).elim
      | some c => cases c with
        | map m =>
          simp only [change1, changeEntry] at hv ⊢
          cases hf : f it false (mapGet m k) with
          | error e => rw [hf] at hv; cases hv
          | ok y => rw [hf] at hv; rw [h _ _ _ _ hf]; exact hv
        | _ => exact (no _ rfl hv).elim
    | _ => cases hv

theorem change_mono {f f' : Change} (h : ∀ t a c v, f t a c = .ok v → f' t a c = .ok v) : ∀ (l : List Seg) {t : PTy} {a : Bool} {c : Option Val} {v : Val},
    change P l f t a c = .ok v → change P l f' t a c = .ok v
  | [], _, _, _, _, hv => h _ _ _ _ hv
  | g :: l, _, _, _, _, hv => change1_mono (g := g) (fun _ _ _ _ => change_mono h l) hv

theorem step_mono {new new' : PTy → Made Val} (h : ∀ t v, new t = .ok v → new' t = .ok v) {s : Spec.GoD.St} {t : PTy} {a : Bool} {c : Option Val} {v : Val}
    (hv : step P new s t a c = .ok v) : step P new' s t a c = .ok v := by
  cases s with
  | assign l e => exact change_mono (fun _ _ _ _ => value_mono h) l hv
  | copy l bs => exact hv

theorem run_mono {new new' : PTy → Made Val} (h : ∀ t v, new t = .ok v → new' t = .ok v) : ∀ {L : Sts} {t : PTy} {a : Bool} {c r : Option Val},
    run P new L t a c = .ok r → run P new' L t a c = .ok r
  | [], _, _, _, _, hv => hv
  | s :: L, t, a, c, r, hv => by
    simp only [run] at hv ⊢
    cases hs : step P new s t a c with
    | error e => rw [hs] at hv; cases hv
    | ok x =>
      rw [hs] at hv
      rw [step_mono h hs]
      exact run_mono h hv

variable {bodies : QName → Sts}

theorem makes_mono {m m' : Nat} (hm : m ≤ m') {t : PTy} {v : Val} (h : makes P bodies m t = .ok v) : makes P bodies m' t = .ok v := by
  induction m generalizing m' t v with
  | zero => cases h
  | succ m ih =>
    obtain ⟨m', rfl⟩ : ∃ k, m' = k + 1 := ⟨m' - 1, by omega⟩
    cases t with
    | ref q =>
      simp only [makes] at h ⊢
      cases hq : P.n.find q with
      | none => rw [hq] at h; cases h
      | some d =>
        rw [hq] at h
        dsimp only at h ⊢
        cases hk : d.kind with
        | record fs doc =>
          rw [hk] at h
          dsimp only at h ⊢
          obtain ⟨o, h1, h2⟩ := bind_ok h
          rw [ok_bind (run_mono (fun t v h => ih (by omega) h) h1), h2]
        | enum s e v => rw [hk] at h; cases h
        | fixed k => rw [hk] at h; cases h
    | _ => exact h

/-- What statements do in a package, however many calls it takes. -/
def Runs (P : Spec.GoD.Package) (bodies : QName → Sts) (L : Sts) (t : PTy) (a : Bool) (c r : Option Val) : Prop :=
  ∃ m, run P (makes P bodies m) L t a c = .ok r

theorem Runs.nil {t : PTy} {a : Bool} {c : Option Val} : Runs P bodies [] t a c c := ⟨0, rfl⟩

theorem Runs.append {L R : Sts} {t : PTy} {a : Bool} {c x r : Option Val} (h1 : Runs P bodies L t a c x) (h2 : Runs P bodies R t a x r) :
    Runs P bodies (L ++ R) t a c r := by
  obtain ⟨m1, h1⟩ := h1
  obtain ⟨m2, h2⟩ := h2
  refine ⟨max m1 m2, ?_⟩
  rw [run_append, ok_bind (run_mono (fun _ _ => makes_mono (Nat.le_max_left m1 m2)) h1)]
  exact run_mono (fun _ _ => makes_mono (Nat.le_max_right m1 m2)) h2

/-! ### More depth -/

theorem itemSts_mono {ctor : Sts} {ap ap' : Json → Made Sts} (h : ∀ j L, ap j = .ok L → ap' j = .ok L) : ∀ {js : List Json} {i : Nat} {L : Sts},
    itemSts ctor ap i js = .ok L → itemSts ctor ap' i js = .ok L
  | [], _, _, hl => hl
  | j :: js, i, L, hl => by
    obtain ⟨l, h1, hl⟩ := bind_ok hl
    obtain ⟨r, h2, hl⟩ := bind_ok hl
    rw [itemSts, ok_bind (h _ _ h1), ok_bind (itemSts_mono h h2)]
    exact hl

theorem entrySts_mono {ap ap' : Json → Made Sts} (h : ∀ j L, ap j = .ok L → ap' j = .ok L) : ∀ {kvs : List (Str × Json)} {L : Sts},
    entrySts ap kvs = .ok L → entrySts ap' kvs = .ok L
  | [], _, hl => hl
  | (k, j) :: kvs, L, hl => by
    obtain ⟨l, h1, hl⟩ := bind_ok hl
    obtain ⟨r, h2, hl⟩ := bind_ok hl
    rw [entrySts, ok_bind (h _ _ h1), ok_bind (entrySts_mono h h2)]
    exact hl

theorem fieldSts_mono {nm : Namer} {fs : List PField} {ap ap' : Json → PTy → Made Sts} (h : ∀ j t L, ap j t = .ok L → ap' j t = .ok L) :
    ∀ {kvs : List (Str × Json)} {L : Sts}, fieldSts nm fs ap kvs = .ok L → fieldSts nm fs ap' kvs = .ok L
  | [], _, hl => hl
  | (k, j) :: kvs, L, hl => by
    simp only [fieldSts] at hl ⊢
    cases hf : pFieldByName fs k with
    | none => rw [hf] at hl; cases hl
    | some f =>
      rw [hf] at hl
      dsimp only at hl ⊢
      obtain ⟨l, h1, hl⟩ := bind_ok hl
      obtain ⟨r, h2, hl⟩ := bind_ok hl
      rw [ok_bind (h _ _ _ h1), ok_bind (fieldSts_mono h h2)]
      exact hl

variable {nm : Namer} {n : NS}

theorem defaultSts_mono {k k' : Nat} (hk : k ≤ k') {j : Json} {t : PTy} {L : Sts} (h : defaultSts nm n k j t = .ok L) :
    defaultSts nm n k' j t = .ok L := by
  induction k generalizing k' j t L with
  | zero => cases h
  | succ k ih =>
    obtain ⟨k', rfl⟩ : ∃ m, k' = m + 1 := ⟨k' - 1, by omega⟩
    have ih' : ∀ j t L, defaultSts nm n k j t = .ok L → defaultSts nm n k' j t = .ok L := fun j t L => ih (by omega)
    cases t with
    | prim p d => cases p <;> exact h
    | array it d =>
      cases j with
      | arr js =>
        simp only [defaultSts] at h ⊢
        obtain ⟨l, h1, h⟩ := bind_ok h
        rw [ok_bind (itemSts_mono (fun j L => ih' j it L) h1)]
        exact h
      | _ => exact h
    | map it d =>
      cases j with
      | obj kvs =>
        simp only [defaultSts] at h ⊢
        exact entrySts_mono (fun j L => ih' j it L) h
      | _ => exact h
    | union name ts d =>
      cases ts with
      | nil => exact h
      | cons u ts =>
        simp only [defaultSts] at h ⊢
        by_cases hn : nullTy u = true
        · rw [if_pos hn] at h ⊢; exact h
        · rw [if_neg hn] at h ⊢
          obtain ⟨l, h1, h⟩ := bind_ok h
          rw [ok_bind (ih' _ _ _ h1)]
          exact h
    | ref q =>
      simp only [defaultSts] at h ⊢
      cases hq : n.find q with
      | none => rw [hq] at h; exact h
      | some d =>
        rw [hq] at h
        dsimp only at h ⊢
        cases hd : d.kind with
        | record fs doc =>
          rw [hd] at h
          dsimp only at h ⊢
          cases j with
          | obj kvs => exact fieldSts_mono ih' h
          | _ => exact h
        | enum s e v => rw [hd] at h; exact h
        | fixed k => rw [hd] at h; exact h

theorem dfltSts_mono {k k' : Nat} (hk : k ≤ k') {f : PField} {L : Sts} (h : dfltSts nm n k f = .ok L) : dfltSts nm n k' f = .ok L := by
  unfold dfltSts at h ⊢
  cases hd : f.dflt with
  | none => rw [hd] at h; exact h
  | some j => rw [hd] at h; exact defaultSts_mono hk h

theorem freshSts_mono {k k' : Nat} (hk : k ≤ k') {f : PField} {L : Sts} (h : freshSts nm n k f = .ok L) : freshSts nm n k' f = .ok L := by
  obtain ⟨l, h1, h⟩ := bind_ok h
  unfold freshSts
  rw [ok_bind (dfltSts_mono hk h1)]
  exact h

theorem newSts_mono {k k' : Nat} (hk : k ≤ k') : ∀ {fs : List PField} {L : Sts}, newSts nm n k fs = .ok L → newSts nm n k' fs = .ok L
  | [], _, h => h
  | f :: fs, L, h => by
    obtain ⟨l, h1, h⟩ := bind_ok h
    obtain ⟨r, h2, h⟩ := bind_ok h
    rw [newSts, ok_bind (freshSts_mono hk h1), ok_bind (newSts_mono hk h2)]
    exact h

end Verif
