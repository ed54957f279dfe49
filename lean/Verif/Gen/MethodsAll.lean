import Verif.Gen.MethodsVoid
/-
The methods of generated targets do what the operations of Gen/Memory do.
-/
set_option linter.unusedSimpArgs false
namespace Verif
open Spec.GoT
open Spec.Go (goTypeOf nullTy GoTy Within)

section
variable {P : Pack} {nm : Namer} {n : NS} {t0 : PTy} {t : PTy}

/-! ### Finalize -/

theorem asVar_ofVar (ty : GoTy) (v : Var) : (ofVar ty v).asVar = some v := by
  cases ty <;> cases v <;> rfl

/-- The value of `*r.Target`, a map. -/
theorem value_dict {vars : Vars} {g : Gv} {ty : GoTy} {p : Place} {h : Mem} (hr : vars.lookup "r".toList = some g)
    (hg : select P g "Target".toList = .ok (.val (.ptr (.dict ty) p))) :
    value P vars (.par xSlice) h = (match h.read p with
      | some v => .ok (.data (.dict ty) v, h)
      | none => .error .panic) := by
  rw [value, opd_par, opd_slice hr hg]
  cases hp : h.read p with
  | none => rfl
  | some v => simp only [Bind.bind, Except.bind, load, hp, ofVar_dict, Pure.pure, Except.pure]

theorem value_idx {vars : Vars} {e i : Spec.GoT.Ex} {h : Mem} : value P vars (.idx e i) h =
    (match opd P vars (.idx e i) h with
      | .error s => .error s
      | .ok (o, h1) => match load h1 o with
        | .error s => .error s
        | .ok g => .ok (g, h1)) := by
  rw [value]
  simp only [Bind.bind, Except.bind, Pure.pure, Except.pure]
  cases opd P vars (.idx e i) h with
  | error s => rfl
  | ok x =>
    obtain ⟨o, h1⟩ := x
    simp only
    cases load h1 o <;> rfl

/-- The assignments of `Finalize` from the key number `i` on. -/
def entriesFrom (p : Place) (vals : Var) (K : List (List Byte)) (i : Nat) (h : Mem) : Except Stop (Option (Option Gv) × Mem) :=
  match h.read p with
  | some (.map a) => match h[a]?, memItems vals h with
    | some (.map es), some vs =>
      if K.length ≤ vs.length then .ok (none, h.set a (.map (mapInserts es ((K.drop i).zip (vs.drop i))))) else .error .panic
    | _, _ => .error .panic
  | _ => .error .panic

/-- A round. -/
theorem finalize_round {vars : Vars} {W ty : GoTy} {p : Place} {w : Nat} {ks : Option (List (List Byte))} {vals : Var} {i : Nat} {h : Mem}
    (hr : vars.lookup "r".toList = some (.keyed W (.ptr (.dict ty) p) w)) (hi : vars.lookup "i".toList = some (.int i))
    (hw : h[w]? = some (.wrapper ks vals)) {k : List Byte} (hk : (ks.getD [])[i]? = some k) :
    steps P vars [.assign (.idx (.par xSlice) (.idx xKeys xI)) (.idx xValues xI)] h = (match h.read p with
      | some (.map a) => match h[a]?, memItems vals h with
        | some (.map es), some vs => match vs[i]? with
          | some v => .ok (.next vars, h.set a (.map (mapInsert k v es)))
          | none => .error .panic
        | _, _ => .error .panic
      | _ => .error .panic) := by
  have hxi : ∀ h, value P vars xI h = .ok (.int i, h) := fun h => value_var hi
  have hkey : value P vars (.idx xKeys xI) h = .ok (.str k, h) := by
    rw [value_idx, opd_idx, value_keys hr, hw]
    simp only [hxi, index]
    rw [if_pos (by omega)]
    simp only [Int.toNat_natCast, hk, load]
  have hval : value P vars (.idx xValues xI) h = (match (generalizing := false) vals with
        | .slice b c => if i < c then match h.read ⟨b, [i]⟩ with
            | some v => .ok (ofVar ty v, h)
            | none => .error .panic
          else .error .panic
        | _ => .error .panic) := by
    rw [value_idx, opd_idx, value_values hr, hw]
    simp only [hxi]
    cases vals with
    | slice b c =>
      simp only [index]
      by_cases hc : i < c
      · rw [if_pos (by omega), if_pos hc]
        simp only [load, Int.toNat_natCast]
        cases h.read ⟨b, [i]⟩ <;> rfl
      · rw [if_neg (by omega), if_neg hc]
    | _ => rfl
  rw [steps_one, step_assign (fun x hx => by cases hx), opd_idx, value_dict hr select_keyed]
  cases hp : h.read p with
  | none => rfl
  | some v =>
    simp only [hkey]
    cases v with
    | map a =>
      simp only [index]
      rw [hval]
      cases vals with
      | slice b c =>
        simp only [memItems, Mem.read]
        cases hb : h[b]? with
        | none => simp only; cases h[a]? with
          | none => by_cases hc : i < c <;> simp [hc]
          | some o => cases o <;> (by_cases hc : i < c <;> simp [hc])
        | some o => cases o with
          | var u => cases u with
            | struct tag cs =>
              simp only [Var.at]
              by_cases hc : i < c
              · rw [if_pos hc]
                cases hv : cs[i]? with
                | none =>
                  simp only
                  cases h[a]? with
                  | none => rfl
                  | some o => cases o with
                    | map es => simp [List.getElem?_take, hc, hv]
                    | _ => rfl
                | some v =>
                  simp only [store, asVar_ofVar]
                  cases h[a]? with
                  | none => rfl
                  | some o => cases o with
                    | map es => simp [List.getElem?_take, hc, hv]
                    | _ => rfl
              · rw [if_neg hc]
                cases h[a]? with
                | none => rfl
                | some o => cases o with
                  | map es => simp [List.getElem?_take, hc]
                  | _ => rfl
            | _ => simp only [Var.at]; cases h[a]? with
              | none => by_cases hc : i < c <;> simp [hc]
              | some o => cases o <;> (by_cases hc : i < c <;> simp [hc])
          | _ => simp only; cases h[a]? with
            | none => by_cases hc : i < c <;> simp [hc]
            | some o => cases o <;> (by_cases hc : i < c <;> simp [hc])
      | nil => simp only [memItems]; cases h[a]? with
        | none => rfl
        | some o => cases o <;> rfl
      | _ => simp only [memItems]; cases h[a]? with
        | none => rfl
        | some o => cases o <;> rfl
    | _ => rfl

theorem finalize_rounds {vars : Vars} {W ty : GoTy} {p : Place} {w : Nat} {ks : Option (List (List Byte))} {vals : Var}
    (hr : vars.lookup "r".toList = some (.keyed W (.ptr (.dict ty) p) w)) : ∀ (m i : Nat) (h : Mem),
    h[w]? = some (.wrapper ks vals) → i + m = (ks.getD []).length →
    rounds (fun i h => steps P (("i".toList, .int i) :: vars) [.assign (.idx (.par xSlice) (.idx xKeys xI)) (.idx xValues xI)] h) m i h =
      if m = 0 then .ok (none, h) else entriesFrom p vals (ks.getD []) i h
  | 0, i, h, hw, hm => rfl
  | m + 1, i, h, hw, hm => by
    rw [if_neg (by omega)]
    have hlt : i < (ks.getD []).length := by omega
    have hk := List.getElem?_eq_getElem hlt
    rw [rounds, finalize_round (by rw [look_skip (by decide), hr]) look_self hw hk]
    simp only [entriesFrom]
    cases hp : h.read p with
    | none => rfl
    | some v => cases v with
      | map a =>
        simp only
        cases ha : h[a]? with
        | none => rfl
        | some o => cases o with
          | map es =>
            cases hi : memItems vals h with
            | none => rfl
            | some vs =>
              simp only
              cases hv : vs[i]? with
              | none =>
                have hle : ¬ (ks.getD []).length ≤ vs.length := by
                  have := List.getElem?_eq_none_iff.mp hv; omega
                rw [if_neg hle]; rfl
              | some v =>
                have hal : a < h.length := (List.getElem?_eq_some_iff.mp ha).1
                have haw : a ≠ w := by intro e; subst e; rw [hw] at ha; cases ha
                simp only [Bind.bind, Except.bind]
                have hw' : (h.set a (.map (mapInsert (ks.getD [])[i] v es)))[w]? = some (.wrapper ks vals) := by
                  rw [List.getElem?_set_ne haw]; exact hw
                rw [finalize_rounds hr m (i + 1) _ hw' (by omega)]
                have hvl : i < vs.length := (List.getElem?_eq_some_iff.mp hv).1
                have hve : vs[i] = v := (List.getElem?_eq_some_iff.mp hv).2
                have hd : (ks.getD []).drop i = (ks.getD [])[i] :: (ks.getD []).drop (i + 1) := List.drop_eq_getElem_cons hlt
                have hd' : vs.drop i = v :: vs.drop (i + 1) := by rw [List.drop_eq_getElem_cons hvl, hve]
                rw [hd, hd']
                simp only [List.zip_cons_cons, mapInserts]
                by_cases hm0 : m = 0
                · subst hm0
                  rw [if_pos rfl, if_pos (by omega)]
                  have : (ks.getD []).drop (i + 1) = [] := List.drop_eq_nil_of_le (by omega)
                  rw [this]; rfl
                · rw [if_neg hm0]
                  have hpa : p.id ≠ a := by
                    intro e
                    obtain ⟨u, hu, _⟩ := Mem.read_of hp
                    rw [e, ha] at hu; cases hu
                  have hp' : Mem.read (h.set a (.map (mapInsert (ks.getD [])[i] v es))) p = some (.map a) := by
                    rw [Mem.read_congr (List.getElem?_set_ne (fun e => hpa e.symm)), hp]
                  have hi' : memItems vals (h.set a (.map (mapInsert (ks.getD [])[i] v es))) = some vs := by
                    rw [← hi]
                    cases vals with
                    | slice b c =>
                      have hba : a ≠ b := by
                        intro e; subst e
                        simp only [memItems, ha] at hi; cases hi
                      simp only [memItems, List.getElem?_set_ne hba]
                    | _ => rfl
                  simp only [entriesFrom, hp', List.getElem?_set_self hal, hi', List.set_set]
          | _ => rfl
      | _ => rfl

theorem run_mapFinalize (W : Str) (p : Place) (w : Nat) (h : Mem) :
    Did (.map t.erase p w) ((mapFinalize W).run P (.keyed (.named W) (.ptr (.dict (goTypeOf nm n t)) p) w) [] h)
      (memFinalize (.map t.erase p w, h)) := by
  rw [run_eq]
  show Did _ (finish (steps P [("r".toList, .keyed (.named W) (.ptr (.dict (goTypeOf nm n t)) p) w)]
    [.range "i".toList xKeys [.assign (.idx (.par xSlice) (.idx xKeys xI)) (.idx xValues xI)]] h)) _
  rw [steps_one, step, value_keys look_self]
  simp only [memFinalize]
  cases ho : h[w]? with
  | none => exact ⟨rfl, rfl⟩
  | some o => cases o with
    | wrapper ks vals =>
      simp only [Bind.bind, Except.bind, length]
      have := finalize_rounds (P := P) (vars := [("r".toList, .keyed (.named W) (.ptr (.dict (goTypeOf nm n t)) p) w)]) look_self (ks.getD []).length 0 h ho (by omega)
      rw [this]
      by_cases hz : ks.getD [] = []
      · rw [if_pos (by rw [hz]; rfl), if_pos hz]; exact ⟨rfl, none, rfl⟩
      · have hz' : ¬ (ks.getD []).length = 0 := fun e => hz (List.length_eq_zero_iff.mp e)
        rw [if_neg hz', if_neg hz]
        simp only [entriesFrom]
        cases h.read p with
        | none => exact ⟨rfl, rfl⟩
        | some v => cases v with
          | map a =>
            simp only
            cases h[a]? with
            | none => exact ⟨rfl, rfl⟩
            | some o => cases o with
              | map es =>
                cases memItems vals h with
                | none => exact ⟨rfl, rfl⟩
                | some vs =>
                  simp only
                  by_cases hle : (ks.getD []).length ≤ vs.length
                  · rw [if_pos hle, if_pos hle]; exact ⟨rfl, none, rfl⟩
                  · rw [if_neg hle, if_neg hle]; exact ⟨rfl, rfl⟩
              | _ => exact ⟨rfl, rfl⟩
          | _ => exact ⟨rfl, rfl⟩
    | _ => exact ⟨rfl, rfl⟩

/-! ### Enums and fixeds -/

theorem run_enumSetInt (W T : Str) (p : Place) (v : BitVec 32) (h : Mem) :
    Did (.leaf .enum p) ((enumSetInt W T).run P (.lit (.named W) (.ptr (.named T) p)) [.int32 v] h)
      (memSetLeaf (fun t => genSetInt t v) .enum p h) := by
  rw [run_eq]
  show Did _ (finish (steps P [("b".toList, .lit (.named W) (.ptr (.named T) p)), ("v".toList, .int32 v)]
    [.assign (.star (.par (.sel (.var "b".toList) "Target".toList))) (.conv (.named T) xV)] h)) _
  have hval : ∀ h, value P [("b".toList, .lit (.named W) (.ptr (.named T) p)), ("v".toList, .int32 v)] (.conv (.named T) xV) h =
      .ok (.data (.named T) (.prim (.enum v)), h) := by
    intro h
    rw [value, opd, xV, opd, look_skip (by decide), look_self]; rfl
  have hstar : opd P [("b".toList, .lit (.named W) (.ptr (.named T) p)), ("v".toList, .int32 v)]
      (.star (.par (.sel (.var "b".toList) "Target".toList))) h = (match h.read p with
        | some _ => .ok (.loc (.at p (.named T)), h)
        | none => .error .panic) := by
    simp only [opd, look_self, Bind.bind, Except.bind, load, select_lit, Pure.pure, Except.pure]
    cases h.read p <;> rfl
  rw [steps_one, step_assign (fun x hx => by cases hx), hstar]
  simp only [memSetLeaf]
  cases h.read p with
  | none => exact ⟨rfl, rfl⟩
  | some u => simp only [hval]; exact ⟨rfl, none, rfl⟩

theorem run_fixedSetBytes (W T : Str) {k : Nat} (ha : P.arrays T = some k) (p : Place) (v : List Byte) (h : Mem) :
    Did (.leaf (.fixed k) p) ((fixedSetBytes W).run P (.lit (.named W) (.ptr (.named T) p)) [.bytes v] h)
      (memSetLeaf (fun t => genSetBytes t v) (.fixed k) p h) := by
  rw [run_eq]
  show Did _ (finish (steps P [("r".toList, .lit (.named W) (.ptr (.named T) p)), ("v".toList, .bytes v)] [.copy (.par xSlice) xV] h)) _
  have hval : value P [("r".toList, .lit (.named W) (.ptr (.named T) p)), ("v".toList, .bytes v)] xV h = .ok (.bytes v, h) :=
    value_var (by rw [look_skip (by decide), look_self])
  rw [steps_one, step, opd_par, opd_slice look_self select_lit]
  simp only [memSetLeaf]
  cases hp : h.read p with
  | none => exact ⟨rfl, rfl⟩
  | some u =>
    simp only [Bind.bind, Except.bind, hval, ha, hp]
    exact ⟨rfl, none, rfl⟩
end
end Verif
