import Verif.Gen.DefaultCodeMeans
/-
The other way: what the statements of Gen/DefaultCode do, Gen/Default gives.
-/
namespace Verif
open Spec Spec.Go Spec.GoD

variable {P : Spec.GoD.Package} {bodies : QName → Sts}

/-- A name has a definition. -/
def Resolved (P : Spec.GoD.Package) (t : PTy) : Prop := ∀ q, t = .ref q → ∃ d, P.n.find q = some d

theorem resolved_of_sts {g : Nat} {j : Json} {t : PTy} {L : Sts} (h : defaultSts P.nm P.n g j t = .ok L) : Resolved P t := by
  intro q e
  subst e
  cases g with
  | zero => cases h
  | succ g =>
    simp only [defaultSts] at h
    cases hq : P.n.find q with
    | none => rw [hq] at h; cases h
    | some d => exact ⟨d, rfl⟩

/-- What constructors give, Gen/Default gives. -/
def Makes (P : Spec.GoD.Package) (new : PTy → Made Val) : Prop :=
  ∀ t v, Resolved P t → run P new (ctorSts P.nm P.n t) t true (some (zero P t)) = .ok (some v) → ∃ k, construct P.nm P.n.env k (PTy.erase t) = .ok v

/-- What statements of some depth do, Gen/Default gives. -/
def Sets (P : Spec.GoD.Package) (new : PTy → Made Val) (g : Nat) : Prop :=
  ∀ j t a c r L, defaultSts P.nm P.n g j t = .ok L → run P new L t a c = .ok r → WholeAt P.n.env c (PTy.erase t) →
    ∃ k, applyDefault P.nm P.n.env k j t.erase a c = .ok r

variable {new : PTy → Made Val} {g : Nat}

theorem items_back (hM : Makes P new) (hS : Sets P new g) (it : PTy) (d : Json) (a : Bool) : ∀ (js : List Json) (i : Nat) (L : Sts) (done : List Val)
    (r : Option Val), itemSts (ctorSts P.nm P.n it) (fun j => defaultSts P.nm P.n g j it) i js = .ok L → done.length = i →
    run P new L (.array it d) a (some (.array (done ++ List.replicate js.length (zero P it)))) = .ok r →
    ∃ vs k, applyItems (construct P.nm P.n.env k it.erase) (fun j => applyDefault P.nm P.n.env k j it.erase true) js = .ok vs ∧
      r = some (.array (done ++ vs))
  | [], i, L, done, r, hL, hd, hr => by cases hL; cases hr; exact ⟨[], 0, rfl, rfl⟩
  | j :: js, i, L, done, r, hL, hd, hr => by
    obtain ⟨l, e1, hL⟩ := bind_ok hL
    obtain ⟨rest, e2, hL⟩ := bind_ok hL
    cases hL
    rw [run_append] at hr
    obtain ⟨c, r1, r2⟩ := bind_ok hr
    rw [run_item it d a i _ _ (zero P it) (by rw [List.getElem?_append_right (by omega), hd, Nat.sub_self]; rfl)] at r1
    obtain ⟨v, s1, rfl⟩ := map_ok r1
    obtain ⟨o, s1, r3⟩ := bind_ok s1
    have := present_ok r3
    subst this
    rw [run_append] at s1
    obtain ⟨c, r0, s1⟩ := bind_ok s1
    obtain ⟨v0, rfl⟩ := run_some _ r0
    obtain ⟨k0, h0⟩ := hM _ _ (resolved_of_sts e1) r0
    obtain ⟨k1, h1⟩ := hS _ _ _ _ _ _ e1 s1 (.some ((default_whole P.nm P.n.env k0).1 _ _ h0))
    rw [List.set_append_right _ _ (by omega), hd, Nat.sub_self] at r2
    obtain ⟨vs, k2, h2, rfl⟩ := items_back hM hS it d a js (i + 1) rest (done ++ [v]) r e2 (by simp [hd])
      (by rw [List.append_assoc]; exact r2)
    refine ⟨v :: vs, max k0 (max k1 k2), ?_, by rw [List.append_assoc]; rfl⟩
    rw [applyItems, ok_bind (construct_mono h0 (by omega)), ok_bind (apply_mono h1 (m := max k0 (max k1 k2)) (by omega))]
    show (applyItems _ _ js >>= _) = _
    rw [ok_bind (applyItems_mono (fun v h => construct_mono h (m := max k0 (max k1 k2)) (by omega)) (fun j c v h => apply_mono h (by omega)) h2)]
    rfl

theorem entries_back (hS : Sets P new g) (it : PTy) (d : Json) (a : Bool) : ∀ (kvs : List (Str × Json)) (L : Sts) (m : List (List Byte × Val))
    (r : Option Val), entrySts (fun j => defaultSts P.nm P.n g j it) kvs = .ok L → Sorted m → WholeEntries P.n.env m it.erase →
    run P new L (.map it d) a (some (.map m)) = .ok r →
    ∃ m' k, applyEntries (fun j => applyDefault P.nm P.n.env k j it.erase false) kvs m = .ok m' ∧ r = some (.map m')
  | [], L, m, r, hL, hs, hw, hr => by cases hL; cases hr; exact ⟨m, 0, rfl, rfl⟩
  | (key, j) :: kvs, L, m, r, hL, hs, hw, hr => by
    obtain ⟨l, e1, hL⟩ := bind_ok hL
    obtain ⟨rest, e2, hL⟩ := bind_ok hL
    cases hL
    rw [run_append] at hr
    obtain ⟨c, r1, r2⟩ := bind_ok hr
    rw [run_entry it d a _ l m hs] at r1
    obtain ⟨o, s1, rfl⟩ := map_ok r1
    have hc : WholeAt P.n.env (mapGet m (utf8 key)) it.erase := fun v hv => wholeEntries_get hw hv
    obtain ⟨k1, h1⟩ := hS _ _ _ _ _ _ e1 s1 hc
    have ho := (default_whole P.nm P.n.env k1).2 _ _ _ _ _ h1 hc
    have hs' : Sorted (put (utf8 key) m o) := by
      cases o with
      | none => exact hs
      | some v => exact sorted_insert _ _ hs
    have hw' : WholeEntries P.n.env (put (utf8 key) m o) it.erase := by
      cases o with
      | none => exact hw
      | some v => exact wholeEntries_insert hw (ho v rfl)
    obtain ⟨m', k2, h2, rfl⟩ := entries_back hS it d a kvs rest _ r e2 hs' hw' r2
    refine ⟨m', max k1 k2, ?_, rfl⟩
    have h2 := applyEntries_mono (ap' := fun j => applyDefault P.nm P.n.env (max k1 k2) j it.erase false) (fun j c v h => apply_mono h (by omega)) h2
    rw [applyEntries, ok_bind (apply_mono h1 (m := max k1 k2) (by omega))]
    cases o <;> exact h2

theorem nilMap_back (hS : Sets P new g) (it : PTy) (d : Json) (a : Bool) {cur : Option Val} (hc : ∀ m, cur ≠ some (.map m)) : ∀ (kvs : List (Str × Json)) (L : Sts)
    (r : Option Val), entrySts (fun j => defaultSts P.nm P.n g j it) kvs = .ok L → run P new L (.map it d) a cur = .ok r →
    (∃ k, applyNilMap (fun j => applyDefault P.nm P.n.env k j it.erase false none) kvs = .ok ()) ∧ r = cur
  | [], L, r, hL, hr => by cases hL; cases hr; exact ⟨⟨0, rfl⟩, rfl⟩
  | (key, j) :: kvs, L, r, hL, hr => by
    obtain ⟨l, e1, hL⟩ := bind_ok hL
    obtain ⟨rest, e2, hL⟩ := bind_ok hL
    cases hL
    rw [run_append] at hr
    obtain ⟨c, r1, r2⟩ := bind_ok hr
    obtain ⟨rfl, rfl⟩ := run_entry_not hc r1
    obtain ⟨k1, h1⟩ := hS _ it false none none _ e1 rfl .none
    obtain ⟨⟨k2, h2⟩, rfl⟩ := nilMap_back hS it d a hc kvs rest r e2 r2
    refine ⟨⟨max k1 k2, ?_⟩, rfl⟩
    rw [applyNilMap, ok_bind (apply_mono h1 (m := max k1 k2) (by omega))]
    exact applyNilMap_mono (fun j v h => apply_mono h (by omega)) h2

theorem entryFields_back (hS : Sets P new g) {q : QName} (fs : List PField) {a : Bool} {cur : Option Val}
    (hc : a = true → ∀ vs, cur ≠ some (.record vs)) : ∀ (kvs : List (Str × Json)) (L : Sts) (r : Option Val),
    fieldSts P.nm fs (fun j t => defaultSts P.nm P.n g j t) kvs = .ok L → run P new L (.ref q) a cur = .ok r →
    (∃ k, applyEntryFields (fs.map PField.erase) (fun j t => applyDefault P.nm P.n.env k j t false none) kvs = .ok ()) ∧ r = cur
  | [], L, r, hL, hr => by cases hL; cases hr; exact ⟨⟨0, rfl⟩, rfl⟩
  | (key, j) :: kvs, L, r, hL, hr => by
    simp only [fieldSts] at hL
    rcases fieldByName_erase (k := key) fs 0 with ⟨-, hp⟩ | ⟨i, f, hi, hf, hp⟩
    · rw [hp] at hL; cases hL
    · rw [hp] at hL
      dsimp only at hL
      obtain ⟨l, e1, hL⟩ := bind_ok hL
      obtain ⟨rest, e2, hL⟩ := bind_ok hL
      cases hL
      rw [run_append] at hr
      obtain ⟨c, r1, r2⟩ := bind_ok hr
      obtain ⟨rfl, rfl⟩ := run_field_not hc r1
      obtain ⟨k1, h1⟩ := hS _ f.ty false none none _ e1 rfl .none
      obtain ⟨⟨k2, h2⟩, rfl⟩ := entryFields_back hS fs hc kvs rest r e2 r2
      refine ⟨⟨max k1 k2, ?_⟩, rfl⟩
      simp only [applyEntryFields]
      rw [show fieldByName (fs.map PField.erase) key = some (0 + i, f.erase) from hf]
      dsimp only
      rw [show f.erase.ty = f.ty.erase from rfl, ok_bind (apply_mono h1 (m := max k1 k2) (by omega))]
      exact applyEntryFields_mono (fun j t v h => apply_mono h (by omega)) h2

theorem fields_back (hG : Generated P bodies) (hS : Sets P new g) {q : QName} {d : PDef} {fs : List PField} {doc : Str}
    (hq : P.n.find q = some d) (hk : d.kind = .record fs doc) : ∀ (kvs : List (Str × Json)) (L : Sts) (vs : List Val) (r : Option Val),
    fieldSts P.nm fs (fun j t => defaultSts P.nm P.n g j t) kvs = .ok L → WholeFields P.n.env vs (fs.map PField.erase) →
    run P new L (.ref q) true (some (.record vs)) = .ok r →
    ∃ vs' k, applyFields (fs.map PField.erase) (fun j t => applyDefault P.nm P.n.env k j t true) kvs vs = .ok vs' ∧ r = some (.record vs')
  | [], L, vs, r, hL, hw, hr => by cases hL; cases hr; exact ⟨vs, 0, rfl, rfl⟩
  | (key, j) :: kvs, L, vs, r, hL, hw, hr => by
    simp only [fieldSts] at hL
    rcases fieldByName_erase (k := key) fs 0 with ⟨-, hp⟩ | ⟨i, f, hi, hf, hp⟩
    · rw [hp] at hL; cases hL
    · rw [hp] at hL
      dsimp only at hL
      obtain ⟨l, e1, hL⟩ := bind_ok hL
      obtain ⟨rest, e2, hL⟩ := bind_ok hL
      cases hL
      rw [run_append] at hr
      obtain ⟨c, r1, r2⟩ := bind_ok hr
      have hi' : (fs.map PField.erase)[i]? = some f.erase := by rw [List.getElem?_map, hi]; rfl
      obtain ⟨w, w1, w2⟩ := wholeFields_get hw hi'
      rw [run_field hq hk (hG.names _ _ _ _ hq hk) hi l vs w w1] at r1
      obtain ⟨v, s1, rfl⟩ := map_ok r1
      obtain ⟨o, s1, r3⟩ := bind_ok s1
      have := present_ok r3
      subst this
      obtain ⟨k1, h1⟩ := hS _ f.ty _ _ _ _ e1 s1 (.some w2)
      have hx := (default_whole P.nm P.n.env k1).2 _ _ _ _ _ h1 (.some w2) v rfl
      obtain ⟨vs', k2, h2, rfl⟩ := fields_back hG hS hq hk kvs rest _ r e2 (wholeFields_set hw hi' hx) r2
      refine ⟨vs', max k1 k2, ?_, rfl⟩
      simp only [applyFields]
      rw [show fieldByName (fs.map PField.erase) key = some (0 + i, f.erase) from hf, Nat.zero_add]
      dsimp only
      have h3 : onField (applyDefault P.nm P.n.env (max k1 k2) j f.erase.ty true) vs[i]? = .ok v := by
        rw [w1]
        show (applyDefault P.nm P.n.env (max k1 k2) j f.ty.erase true (some w) >>= present) = _
        rw [ok_bind (apply_mono h1 (by omega))]; rfl
      rw [ok_bind h3]
      exact applyFields_mono (fun j t c v h => apply_mono h (by omega)) h2

theorem new_back (hG : Generated P bodies) (hM : Makes P new) (hS : ∀ g, Sets P new g) {q : QName} {d : PDef} {fs : List PField} {doc : Str}
    (hq : P.n.find q = some d) (hk : d.kind = .record fs doc) {g : Nat} : ∀ (rest pre : List PField) (done : List Val) (L : Sts) (r : Option Val),
    fs = pre ++ rest → done.length = pre.length → newSts P.nm P.n g rest = .ok L →
    run P new L (.ref q) true (some (.record (done ++ rest.map fun f => zero P f.ty))) = .ok r →
    ∃ vs k, newFields (construct P.nm P.n.env k) (fun j t => applyDefault P.nm P.n.env k j t true) (rest.map PField.erase) = .ok vs ∧
      r = some (.record (done ++ vs))
  | [], pre, done, L, r, _, _, hL, hr => by cases hL; cases hr; exact ⟨[], 0, rfl, rfl⟩
  | f :: rest, pre, done, L, r, hf, hd, hL, hr => by
    obtain ⟨l, e1, hL⟩ := bind_ok hL
    obtain ⟨l', e2, hL⟩ := bind_ok hL
    cases hL
    obtain ⟨b, e3, e1⟩ := bind_ok e1
    cases e1
    rw [run_append] at hr
    obtain ⟨c, r1, r2⟩ := bind_ok hr
    have hi : fs[done.length]? = some f := by rw [hf, List.getElem?_append_right (by omega), hd, Nat.sub_self]; rfl
    rw [run_field hq hk (hG.names _ _ _ _ hq hk) hi _ _ (zero P f.ty)
      (by rw [List.getElem?_append_right (Nat.le_refl _), Nat.sub_self]; rfl)] at r1
    obtain ⟨v, s1, rfl⟩ := map_ok r1
    obtain ⟨o, s1, r3⟩ := bind_ok s1
    have := present_ok r3
    subst this
    rw [run_append] at s1
    obtain ⟨c, r0, s1⟩ := bind_ok s1
    obtain ⟨v0, rfl⟩ := run_some _ r0
    have h0 : ∃ k, freshField (construct P.nm P.n.env k) f.erase = .ok v0 ∧ Whole P.n.env v0 f.ty.erase := by
      unfold freshField
      by_cases hn : f.ty.erase.nullFirst = true
      · rw [if_pos hn] at r0
        cases r0
        rw [nullFirst_zero hn]
        exact ⟨0, by rw [if_pos (show f.erase.ty.nullFirst = true from hn)], trivial⟩
      · rw [if_neg hn] at r0
        obtain ⟨k, h⟩ := hM _ _ (fun q' e => hG.types _ _ _ _ f q' hq hk (List.mem_iff_getElem?.2 ⟨_, hi⟩) e) r0
        exact ⟨k, by rw [if_neg (show ¬ f.erase.ty.nullFirst = true from hn)]; exact h, (default_whole P.nm P.n.env k).1 _ _ h⟩
    obtain ⟨k0, h0, hw0⟩ := h0
    have h1 : ∃ k, fieldDefault (fun j t => applyDefault P.nm P.n.env k j t true) f.erase v0 = .ok v := by
      unfold fieldDefault
      unfold dfltSts at e3
      rw [show f.erase.dflt = f.dflt from rfl]
      cases hdf : f.dflt with
      | none => rw [hdf] at e3; cases e3; cases s1; exact ⟨0, rfl⟩
      | some j =>
        rw [hdf] at e3
        obtain ⟨k, h⟩ := hS g _ _ _ _ _ _ e3 s1 (.some hw0)
        refine ⟨k, ?_⟩
        show (applyDefault P.nm P.n.env k j f.ty.erase true (some v0) >>= present) = _
        rw [ok_bind h]; rfl
    obtain ⟨k1, h1⟩ := h1
    rw [List.set_append_right _ _ (Nat.le_refl _), Nat.sub_self] at r2
    obtain ⟨vs, k2, h2, rfl⟩ := new_back hG hM hS hq hk rest (pre ++ [f]) (done ++ [v]) l' r (by rw [hf]; simp) (by simp [hd]) e2
      (by rw [List.append_assoc]; exact r2)
    refine ⟨v :: vs, max k0 (max k1 k2), ?_, by rw [List.append_assoc]; rfl⟩
    have a0 : freshField (construct P.nm P.n.env (max k0 (max k1 k2))) f.erase = .ok v0 := by
      unfold freshField at h0 ⊢
      split
      · rename_i hn; rw [if_pos hn] at h0; exact h0
      · rename_i hn; rw [if_neg hn] at h0; exact construct_mono h0 (by omega)
    have a1 : fieldDefault (fun j t => applyDefault P.nm P.n.env (max k0 (max k1 k2)) j t true) f.erase v0 = .ok v := by
      unfold fieldDefault at h1 ⊢
      cases hdf : f.erase.dflt with
      | none => rw [hdf] at h1; exact h1
      | some j =>
        rw [hdf] at h1
        obtain ⟨o, h3, h4⟩ := bind_ok h1
        dsimp only
        rw [ok_bind (apply_mono h3 (by omega))]; exact h4
    have a2 := newFields_mono (mk' := construct P.nm P.n.env (max k0 (max k1 k2)))
      (ap' := fun j t => applyDefault P.nm P.n.env (max k0 (max k1 k2)) j t true) (fun t v h => construct_mono h (by omega))
      (fun j t c v h => apply_mono h (by omega)) h2
    rw [List.map_cons, newFields, ok_bind a0, ok_bind a1, ok_bind a2]
    rfl

theorem apply_record {q : QName} {d : PDef} {fs : List PField} {doc : Str} (hq : P.n.find q = some d) (hk : d.kind = .record fs doc) (k : Nat)
    (kvs : List (Str × Json)) (a : Bool) (c : Option Val) : applyDefault P.nm P.n.env (k + 1) (.obj kvs) (.ref q) a c = (match a, c with
      | true, some (.record vs) => (applyFields (fs.map PField.erase) (fun j t => applyDefault P.nm P.n.env k j t true) kvs vs).map fun vs => some (.record vs)
      | _, _ => (applyEntryFields (fs.map PField.erase) (fun j t => applyDefault P.nm P.n.env k j t false none) kvs).map fun _ => c) := by
  simp only [applyDefault]
  rw [find_erase hq]
  dsimp only
  rw [kind_record hk]
  dsimp only
  cases a with
  | false => rfl
  | true => cases c with
    | none => rfl
    | some c => cases c <;> rfl

theorem sets_all (hG : Generated P bodies) (hM : Makes P new) (hU : ∀ name ts d v, new (.union name ts d) = .ok v → v = .union 0 none) :
    ∀ g, Sets P new g
  | 0 => fun j t a c r L h => by cases h
  | g + 1 => by
    have hS := sets_all hG hM hU g
    intro j t a c r L hL hr hw
    cases t with
    | prim p d =>
      cases p with
      | null => cases hL; cases hr; exact ⟨1, rfl⟩
      | bool => cases j <;> cases hL; cases hr; exact ⟨1, rfl⟩
      | bytes => cases j <;> cases hL; cases hr; exact ⟨1, rfl⟩
      | string => cases j <;> cases hL; cases hr; exact ⟨1, rfl⟩
      | int =>
        refine ⟨1, ?_⟩
        simp only [defaultSts] at hL
        simp only [PTy.erase, Prim.ty, applyDefault, intDefault]
        cases hj : j.number with
        | none => rw [hj] at hL; cases hL
        | some x =>
          obtain ⟨y, e⟩ := x
          rw [hj] at hL
          cases hL
          have hx := numberToks_read hj
          dsimp only
          generalize literal y e = z at hx ⊢
          rw [number_value hx] at hr
          exact (int_run z).symm.trans hr
      | long =>
        refine ⟨1, ?_⟩
        simp only [defaultSts] at hL
        simp only [PTy.erase, Prim.ty, applyDefault, intDefault]
        cases hj : j.number with
        | none => rw [hj] at hL; cases hL
        | some x =>
          obtain ⟨y, e⟩ := x
          rw [hj] at hL
          cases hL
          have hx := numberToks_read hj
          dsimp only
          generalize literal y e = z at hx ⊢
          rw [number_value hx] at hr
          exact (long_run z).symm.trans hr
      | float =>
        refine ⟨1, ?_⟩
        simp only [defaultSts] at hL
        simp only [PTy.erase, Prim.ty, applyDefault, floatDefault]
        cases hj : j.number with
        | none => rw [hj] at hL; cases hL
        | some x =>
          obtain ⟨y, e⟩ := x
          rw [hj] at hL
          cases hL
          have hx := numberToks_read hj
          dsimp only
          generalize literal y e = z at hx ⊢
          rw [number_value hx] at hr
          exact (float_run z).symm.trans hr
      | double =>
        refine ⟨1, ?_⟩
        simp only [defaultSts] at hL
        simp only [PTy.erase, Prim.ty, applyDefault, floatDefault]
        cases hj : j.number with
        | none => rw [hj] at hL; cases hL
        | some x =>
          obtain ⟨y, e⟩ := x
          rw [hj] at hL
          cases hL
          have hx := numberToks_read hj
          dsimp only
          generalize literal y e = z at hx ⊢
          rw [number_value hx] at hr
          exact (double_run z).symm.trans hr
    | array it d =>
      cases j with
      | arr js =>
        simp only [defaultSts] at hL
        obtain ⟨l, e1, hL⟩ := bind_ok hL
        cases hL
        have hr' : run P new l (.array it d) a (some (.array ([] ++ List.replicate js.length (zero P it)))) = .ok r := by
          simp only [run, step, change, value, if_true] at hr; exact hr
        obtain ⟨vs, k, h, rfl⟩ := items_back hM hS it d a js 0 l [] r e1 rfl hr'
        refine ⟨k + 1, ?_⟩
        simp only [PTy.erase, applyDefault]
        rw [ok_map h]; rfl
      | _ => cases hL
    | map it d =>
      cases j with
      | obj kvs =>
        simp only [defaultSts] at hL
        have no : (∀ m, c ≠ some (.map m)) → (∀ k, applyDefault P.nm P.n.env (k + 1) (.obj kvs) (.map it.erase) a c =
            (applyNilMap (fun j => applyDefault P.nm P.n.env k j it.erase false none) kvs).map (fun _ => c)) →
            ∃ k, applyDefault P.nm P.n.env k (.obj kvs) (.map it.erase) a c = .ok r := by
          intro h1 h2
          obtain ⟨⟨k, h3⟩, rfl⟩ := nilMap_back hS it d a h1 kvs L r hL hr
          exact ⟨k + 1, by rw [h2, ok_map h3]⟩
        cases c with
        | none => exact no (fun m h => (by cases h)) (fun _ => rfl)
        | some c => cases c with
          | map m =>
            obtain ⟨h1, h2⟩ := hw _ rfl it.erase rfl
            obtain ⟨m', k, h, rfl⟩ := entries_back hS it d a kvs L m r hL h1 h2 hr
            refine ⟨k + 1, ?_⟩
            simp only [PTy.erase, applyDefault]
            rw [ok_map h]
          | _ => exact no (fun m h => (by cases h)) (fun _ => rfl)
      | _ => cases hL
    | union name ts d =>
      cases ts with
      | nil => cases hL
      | cons u ts =>
        simp only [defaultSts] at hL
        cases hu : nullTy u with
        | true =>
          rw [hu, if_pos rfl] at hL
          cases hL
          simp only [run, step, change, value, List.any_cons, hu, Bool.true_or, if_true] at hr
          cases hr
          refine ⟨1, ?_⟩
          simp only [PTy.erase, PTy.erases, applyDefault]
          rw [nullTy_erase, hu, if_pos rfl]
        | false =>
          rw [hu, if_neg (by decide)] at hL
          obtain ⟨l, e1, hL⟩ := bind_ok hL
          cases hL
          have hne := member_sts hu e1
          have hx : ∃ s L', ctorSts P.nm P.n u ++ l = s :: L' := by
            cases hl : ctorSts P.nm P.n u ++ l with
            | nil => exact (hne hl).elim
            | cons s L => exact ⟨s, L, rfl⟩
          obtain ⟨s, L', hx⟩ := hx
          rw [hx] at hr
          have hr' : ∃ v, new (.union name (u :: ts) d) = .ok v ∧
              run P new ((s :: L').map (.under (.field (u.goName P.nm P.n)))) (.union name (u :: ts) d) a (some v) = .ok r := by
            rw [run] at hr
            simp only [step, change, value, if_true] at hr
            cases hv : new (.union name (u :: ts) d) with
            | error e => rw [hv] at hr; cases hr
            | ok v => rw [hv] at hr; exact ⟨v, rfl, hr⟩
          obtain ⟨v, hv, hr'⟩ := hr'
          have := hU _ _ _ _ hv
          subst this
          rw [run_member] at hr'
          have ha : List.any (u.erase :: PTy.erases ts) Ty.isNull = (u :: ts).any nullTy := (any_null_erase (u :: ts)).symm
          by_cases hc : a = false ∧ (u :: ts).any nullTy = false
          · rw [if_pos hc] at hr'; cases hr'
          · rw [if_neg hc, ← hx] at hr'
            obtain ⟨v, s1, rfl⟩ := map_ok hr'
            obtain ⟨o, s1, s2⟩ := bind_ok s1
            have := present_ok s2
            subst this
            rw [run_append] at s1
            obtain ⟨c0, s0, s1⟩ := bind_ok s1
            obtain ⟨v0, rfl⟩ := run_some _ s0
            obtain ⟨k0, h0⟩ := hM _ _ (resolved_of_sts e1) s0
            obtain ⟨k1, h1⟩ := hS _ _ _ _ _ _ e1 s1 (.some ((default_whole P.nm P.n.env k0).1 _ _ h0))
            refine ⟨max k0 k1 + 1, ?_⟩
            simp only [PTy.erase, PTy.erases, applyDefault]
            rw [nullTy_erase, hu, if_neg (by decide), ha, if_neg hc, ok_bind (construct_mono h0 (Nat.le_max_left _ _)),
              ok_bind (apply_mono h1 (Nat.le_max_right _ _))]
            rfl
    | ref q =>
      simp only [defaultSts] at hL
      cases hq : P.n.find q with
      | none => rw [hq] at hL; cases hL
      | some d =>
        rw [hq] at hL
        dsimp only at hL
        cases hk : d.kind with
        | enum s e x =>
          rw [hk] at hL
          dsimp only at hL
          cases j with
          | str y =>
            cases hL
            refine ⟨1, ?_⟩
            simp only [PTy.erase, applyDefault]
            rw [find_erase hq]
            dsimp only
            rw [kind_enum hk]
            dsimp only
            simp only [run, step, change, value, hq, hk] at hr
            show (orBuild (constant P s (d.goName P.nm) (symbolGoName P.nm (d.goName P.nm) y))).map _ = _
            cases hx : constant P s (d.goName P.nm) (symbolGoName P.nm (d.goName P.nm) y) with
            | none => rw [hx] at hr; cases hr
            | some w => rw [hx] at hr; cases hr; rfl
          | _ => cases hL
        | fixed x =>
          rw [hk] at hL
          dsimp only at hL
          cases j with
          | str y =>
            cases hL
            refine ⟨1, ?_⟩
            simp only [PTy.erase, applyDefault]
            rw [find_erase hq]
            dsimp only
            rw [kind_fixed hk]
            dsimp only
            simp only [run, step, change, copied, hq, hk] at hr
            cases a with
            | false => cases hr
            | true => cases c with
              | none => cases hr
              | some c => cases c with
                | fixed bs => exact hr
                | _ => cases hr
          | _ => cases hL
        | record fs doc =>
          rw [hk] at hL
          dsimp only at hL
          cases j with
          | obj kvs =>
            have no : (a = true → ∀ vs, c ≠ some (.record vs)) → (∀ k, applyDefault P.nm P.n.env (k + 1) (.obj kvs) (.ref q) a c =
                (applyEntryFields (fs.map PField.erase) (fun j t => applyDefault P.nm P.n.env k j t false none) kvs).map (fun _ => c)) →
                ∃ k, applyDefault P.nm P.n.env k (.obj kvs) (.ref q) a c = .ok r := by
              intro h1 h2
              obtain ⟨⟨k, h3⟩, rfl⟩ := entryFields_back hS fs h1 kvs L r hL hr
              exact ⟨k + 1, by rw [h2, ok_map h3]⟩
            have eqn := fun k => apply_record (P := P) hq hk k kvs a c
            cases a with
            | false => exact no (fun h => by cases h) eqn
            | true => cases c with
              | none => exact no (fun _ vs h => by cases h) eqn
              | some c => cases c with
                | record vs =>
                  obtain ⟨vs', k, h, rfl⟩ := fields_back hG hS hq hk kvs L vs r hL (hw _ rfl q _ _ rfl (find_erase hq) (kind_record hk)) hr
                  exact ⟨k + 1, by rw [PTy.erase, eqn]; dsimp only; rw [ok_map h]⟩
                | _ => exact no (fun _ vs h => by cases h) eqn
          | _ => cases hL

theorem makes_union {m : Nat} {name : Str} {ts : List PTy} {d : List Json} {v : Val} (h : makes P bodies m (.union name ts d) = .ok v) :
    v = .union 0 none := by
  cases m with
  | zero => cases h
  | succ m => cases h; rfl

theorem makes_back_at {m : Nat} (hR : ∀ q d fs doc v, P.n.find q = some d → d.kind = .record fs doc → makes P bodies m (.ref q) = .ok v →
    ∃ k, construct P.nm P.n.env k (.ref q) = .ok v) : Makes P (makes P bodies m) := by
  intro t v ht h
  cases t with
  | prim p d => cases p <;> cases h <;> exact ⟨1, rfl⟩
  | array it d =>
    rw [ctor_run (e := .makeSlice (goTypeOf P.nm P.n (.array it d))) rfl] at h
    cases h; exact ⟨1, rfl⟩
  | map it d =>
    rw [ctor_run (e := .makeMap (goTypeOf P.nm P.n (.map it d))) rfl] at h
    cases h; exact ⟨1, rfl⟩
  | union name ts d =>
    rw [ctor_run (e := .call (newName ((PTy.union name ts d).goName P.nm P.n))) rfl] at h
    obtain ⟨x, h1, h2⟩ := map_ok h
    cases h2
    rw [makes_union h1]
    exact ⟨1, rfl⟩
  | ref q =>
    obtain ⟨d, hq⟩ := ht q rfl
    cases hk : d.kind with
    | record fs doc =>
      rw [ctor_run (ctor_record hq hk)] at h
      obtain ⟨x, h1, h2⟩ := map_ok h
      cases h2
      exact hR q d fs doc v hq hk h1
    | enum s e x =>
      rw [ctor_none (by simp only [PTy.ctor, hq, hk])] at h
      cases h
      refine ⟨1, ?_⟩
      rw [← zero_eq (.ref q) (fun q' e => by cases e; exact ⟨d, hq, fun fs doc h => by rw [hk] at h; cases h⟩)]
      simp only [PTy.erase, construct]
      rw [find_erase hq]
      dsimp only
      rw [kind_enum hk]
    | fixed x =>
      rw [ctor_none (by simp only [PTy.ctor, hq, hk])] at h
      cases h
      refine ⟨1, ?_⟩
      rw [← zero_eq (.ref q) (fun q' e => by cases e; exact ⟨d, hq, fun fs doc h => by rw [hk] at h; cases h⟩)]
      simp only [PTy.erase, construct]
      rw [find_erase hq]
      dsimp only
      rw [kind_fixed hk]

theorem makes_back (hG : Generated P bodies) (m : Nat) : Makes P (makes P bodies m) := by
    intro t v ht h
    induction m generalizing t v with
    | zero => exact makes_back_at (fun q d fs doc v hq hk h => by cases h) t v ht h
    | succ m hM =>
      refine makes_back_at (fun q d fs doc v hq hk h1 => ?_) t v ht h
      simp only [makes, hq, hk] at h1
      obtain ⟨o, h1, h2⟩ := bind_ok h1
      have := present_ok h2
      subst this
      obtain ⟨g, hg⟩ := hG.bodies _ _ _ _ hq hk
      obtain ⟨vs, k, h3, h4⟩ := new_back hG hM (sets_all hG hM fun _ _ _ _ => makes_union) hq hk fs [] [] _ _ rfl rfl hg h1
      cases h4
      refine ⟨k + 1, ?_⟩
      simp only [construct]
      rw [find_erase hq]
      dsimp only
      rw [kind_record hk]
      dsimp only
      rw [ok_map h3]; rfl

/-! ### Both ways -/

/-- Constructors. -/
theorem makes_iff (hG : Generated P bodies) {q : QName} {d : PDef} {fs : List PField} {doc : Str} (hq : P.n.find q = some d)
    (hk : d.kind = .record fs doc) (v : Val) :
    (∃ m, makes P bodies m (.ref q) = .ok v) ↔ ∃ k, construct P.nm P.n.env k (.ref q) = .ok v := by
  constructor
  · rintro ⟨m, h⟩
    exact makes_back hG m (.ref q) v (fun q' e => by cases e; exact ⟨d, hq⟩) (by rw [ctor_run (ctor_record hq hk)]; dsimp only; rw [h]; rfl)
  · rintro ⟨k, h⟩
    obtain ⟨m, hm⟩ := (below hG k).make (.ref q) v h
    rw [ctor_run (ctor_record hq hk)] at hm
    obtain ⟨x, h1, h2⟩ := map_ok hm
    cases h2
    exact ⟨m, h1⟩

/-- Defaults. -/
theorem default_iff (hG : Generated P bodies) {j : Json} {t : PTy} {a : Bool} {c : Option Val} (hw : WholeAt P.n.env c t.erase) (r : Option Val) :
    (∃ L, (∃ g, defaultSts P.nm P.n g j t = .ok L) ∧ Runs P bodies L t a c r) ↔ ∃ k, applyDefault P.nm P.n.env k j t.erase a c = .ok r := by
  constructor
  · rintro ⟨L, ⟨g, hg⟩, m, hm⟩
    exact sets_all hG (makes_back hG m) (fun _ _ _ _ => makes_union) g _ _ _ _ _ _ hg hm hw
  · rintro ⟨k, h⟩
    obtain ⟨L, h1, h2⟩ := (below hG k).set _ _ _ _ _ h hw
    exact ⟨L, ⟨k, h1⟩, h2⟩

end Verif
