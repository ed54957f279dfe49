import Verif.Gen.MethodsEach
/-
Each method of a generated target, run: `AppendArray` and `AppendMap`.
-/
set_option linter.unusedSimpArgs false
namespace Verif
open Spec.GoT
open Spec.Go (goTypeOf nullTy GoTy Within)

section
variable {P : Pack} {nm : Namer} {n : NS} {t0 : PTy} {t : PTy}

theorem value_append {vars : Vars} {a b : Spec.GoT.Ex} {h : Mem} : value P vars (.append a b) h =
    (match value P vars a h with
      | .error s => .error s
      | .ok (x, h1) => match value P vars b h1 with
        | .error s => .error s
        | .ok (y, h2) => appendTo P x y h2) := by
  simp only [opd, value, Bind.bind, Except.bind, Pure.pure, Except.pure]
  cases opd P vars a h with
  | error s => rfl
  | ok x =>
    obtain ⟨o, h1⟩ := x
    simp only
    cases load h1 o with
    | error s => rfl
    | ok g =>
      simp only
      cases opd P vars b h1 with
      | error s => rfl
      | ok y =>
        obtain ⟨o', h2⟩ := y
        simp only
        cases load h2 o' with
        | error s => rfl
        | ok k =>
          simp only
          cases appendTo P g k h2 with
          | error s => rfl
          | ok z => obtain ⟨g', h3⟩ := z; rfl

theorem value_var {vars : Vars} {x : Str} {g : Gv} {h : Mem} (hx : vars.lookup x = some g) : value P vars (.var x) h = .ok (g, h) := by
  rw [value, opd, hx]; rfl

theorem appendTo_data {ty ty' : GoTy} {s v : Var} {h : Mem} : appendTo P (.data (.slice ty) s) (.data ty' v) h =
    (match memAppend P.grow s v h with
      | some (s', _, h') => .ok (.data (.slice ty) s', h')
      | none => .error .panic) := rfl

theorem run_arrayAppend (hc : CarriesAll P nm n t0) (hw : Within n t0 t) (p : Place) (h : Mem) (W : Str) :
    Gives nm n t0 ((arrayAppend nm n W t).run P (.lit (.named W) (.ptr (.slice (goTypeOf nm n t)) p)) [] h)
      (memAppendArray n.env P.grow (.array t.erase p, h)) := by
  rw [run_eq]
  refine Opened.gives ?_
  obtain ⟨vars, hv1, hv2, hv3⟩ := steps_make (hc _ hw) [("r".toList, .lit (.named W) (.ptr (.slice (goTypeOf nm n t)) p))]
    [.assign xSlice (.append xSlice xV), .ret (wrapped (t.wrapper nm n) lastItem)] h
  show Opened nm n t0 (steps P [("r".toList, .lit (.named W) (.ptr (.slice (goTypeOf nm n t)) p))]
    (.declare "v".toList (goTypeOf nm n t) :: (makeStmts xV (t.ctor nm n) ++ _)) h) _
  rw [hv3]
  have hr : vars.lookup "r".toList = some (.lit (.named W) (.ptr (.slice (goTypeOf nm n t)) p)) := by
    rw [hv1 _ (by decide), look_self]
  simp only [memAppendArray]
  generalize memNew n.env t.erase h = m at hv2 hv3 ⊢
  obtain ⟨v, h1⟩ := m
  simp only at hv2 ⊢
  have hx : value P vars xV h1 = .ok (.data (goTypeOf nm n t) v, h1) := value_var hv2
  have hsl : (∀ x, xSlice ≠ Spec.GoT.Ex.var x) := fun x hx => by cases hx
  have hassign : step P vars (.assign xSlice (.append xSlice xV)) h1 = (match h1.read p with
      | none => .error .panic
      | some sl => match memAppend P.grow sl v h1 with
        | none => .error .panic
        | some (sl', _, h2) => .ok (.next vars, h2.write p sl')) := by
    rw [step_assign hsl, opd_slice hr select_lit]
    have hvs := value_slice (h := h1) hr (select_lit (P := P))
    cases hp : h1.read p with
    | none => rfl
    | some sl =>
      rw [hp] at hvs
      simp only
      rw [value_append, hvs]
      simp only [hx, appendTo_data]
      cases memAppend P.grow sl v h1 with
      | none => rfl
      | some z => obtain ⟨sl', q, h2⟩ := z; rfl
  cases hp : h1.read p with
  | none =>
    rw [hp] at hassign
    rw [steps_stop hassign]; exact ⟨rfl, rfl⟩
  | some sl =>
    rw [hp] at hassign
    simp only at hassign ⊢
    cases hm : memAppend P.grow sl v h1 with
    | none =>
      rw [hm] at hassign
      rw [steps_stop hassign]; exact ⟨rfl, rfl⟩
    | some z =>
      obtain ⟨sl', q, h2⟩ := z
      rw [hm] at hassign
      simp only at hassign ⊢
      rw [steps_cons hassign, steps_one]
      generalize h2.write p sl' = h3
      have hl := opd_lastItem (h := h3) hr (select_lit (P := P))
      have bad : opd P vars lastItem h3 = .error .panic → Opened nm n t0 (step P vars (.ret (wrapped (t.wrapper nm n) lastItem)) h3) (.error .panic) := by
        intro hb
        refine ⟨rfl, ?_⟩
        rw [step_ret]
        cases t.wrapper nm n with
        | none => simp only [wrapped, hb]
        | some W => simp only [wrapped, opd, hb, Bind.bind, Except.bind]
      cases hq : h3.read p with
      | none => rw [hq] at hl; exact bad hl
      | some u =>
        rw [hq] at hl
        cases u with
        | slice a k =>
          cases k with
          | zero => exact bad hl
          | succ k =>
            simp only
            cases hW : t.wrapper nm n with
            | none => exact ret_plain (hc _ hw) hw hW hl
            | some W' => exact ret_wrapped (hc _ hw) hw hW (opd_amp hl)
        | _ => exact bad hl

/-! ### Maps -/

theorem append_set {h l : Mem} {w : Nat} {o : MObj} (hw : w < h.length) : h.set w o ++ l = (h ++ l).set w o := by
  rw [List.set_append, if_pos hw]

/-- Constructing does not touch what is there. -/
theorem memNew_set {env : Env} {t : Ty} {h : Mem} {w : Nat} {o : MObj} (hw : w < h.length) :
    memNew env t (h.set w o) = ((memNew env t h).1, (memNew env t h).2.set w o) := by
  cases t with
  | array t => simp only [memNew, List.length_set, append_set hw]
  | map t => simp only [memNew, List.length_set, append_set hw]
  | union ts =>
    simp only [memNew]
    by_cases hn : (Ty.union ts).nullable = true
    · rw [if_pos hn, if_pos hn]; simp only [List.length_set, append_set hw]
    · rw [if_neg hn, if_neg hn]
  | ref q =>
    simp only [memNew]
    cases env.find q with
    | none => rfl
    | some d => simp only; cases d.kind <;> rfl
  | _ => rfl

theorem memNew_keeps {env : Env} {t : Ty} {h : Mem} {w : Nat} (hw : w < h.length) : (memNew env t h).2[w]? = h[w]? ∧ h.length ≤ (memNew env t h).2.length := by
  cases t with
  | array t => exact ⟨Mem.get_append hw, by simp [memNew]⟩
  | map t => exact ⟨Mem.get_append hw, by simp [memNew]⟩
  | union ts =>
    simp only [memNew]
    by_cases hn : (Ty.union ts).nullable = true
    · rw [if_pos hn]; exact ⟨Mem.get_append hw, by simp⟩
    · rw [if_neg hn]; exact ⟨rfl, Nat.le_refl _⟩
  | ref q =>
    simp only [memNew]
    cases env.find q with
    | none => exact ⟨rfl, Nat.le_refl _⟩
    | some d => simp only; cases d.kind <;> exact ⟨rfl, Nat.le_refl _⟩
  | _ => exact ⟨rfl, Nat.le_refl _⟩

/-- Nor does appending touch a wrapper. -/
theorem memAppend_set {grow : Nat → Nat} {s v : Var} {h : Mem} {w : Nat} {ks ks' : Option (List (List Byte))} {x x' : Var}
    (hw : h[w]? = some (.wrapper ks x)) : memAppend grow s v (h.set w (.wrapper ks' x')) =
      (memAppend grow s v h).map fun r => (r.1, r.2.1, r.2.2.set w (.wrapper ks' x')) := by
  have hl : w < h.length := (List.getElem?_eq_some_iff.mp hw).1
  cases s with
  | nil => simp only [memAppend, List.length_set, append_set hl, Option.map_some]
  | slice a k =>
    simp only [memAppend]
    by_cases ha : a = w
    · subst ha
      rw [List.getElem?_set_self hl, hw]; rfl
    · rw [List.getElem?_set_ne (fun e => ha e.symm)]
      cases h[a]? with
      | none => rfl
      | some o => cases o with
        | var u => cases u with
          | struct tag cs =>
            simp only
            by_cases hk : k < cs.length
            · rw [if_pos hk, if_pos hk]
              simp only [Option.map_some]
              rw [List.set_comm _ _ (fun e => ha e.symm)]
            · rw [if_neg hk, if_neg hk]
              simp only [Option.map_some, List.length_set, append_set hl]
          | _ => rfl
        | _ => rfl
  | _ => rfl

/-- What appending gives: a slice, and its last item. -/
theorem memAppend_shape {grow : Nat → Nat} {s v s' : Var} {q : Place} {h h' : Mem} (hm : memAppend grow s v h = some (s', q, h')) :
    ∃ b k, s' = .slice b (k + 1) ∧ q = ⟨b, [k]⟩ ∧ h.length ≤ h'.length := by
  cases s with
  | nil => cases hm; exact ⟨_, 0, rfl, rfl, by simp⟩
  | slice a k =>
    simp only [memAppend] at hm
    cases ho : h[a]? with
    | none => rw [ho] at hm; cases hm
    | some o => cases o with
      | var u => cases u with
        | struct tag cs =>
          rw [ho] at hm
          simp only at hm
          by_cases hk : k < cs.length
          · rw [if_pos hk] at hm; cases hm; exact ⟨_, _, rfl, rfl, by simp⟩
          · rw [if_neg hk] at hm; cases hm; exact ⟨_, _, rfl, rfl, by simp⟩
        | _ => rw [ho] at hm; cases hm
      | _ => rw [ho] at hm; cases hm
  | _ => cases hm

theorem run_mapAppend (hc : CarriesAll P nm n t0) (hw : Within n t0 t) (p : Place) (w : Nat) (key : List Byte) (h : Mem) (W : Str) :
    Gives nm n t0 ((mapAppend nm n W t).run P (.keyed (.named W) (.ptr (.dict (goTypeOf nm n t)) p) w) [.str key] h)
      (memAppendMap n.env P.grow (.map t.erase p w, h) key) := by
  rw [run_eq]
  refine Opened.gives ?_
  generalize hg : Gv.keyed (.named W) (.ptr (.dict (goTypeOf nm n t)) p) w = g
  show Opened nm n t0 (steps P [("r".toList, g), ("key".toList, .str key)]
    (.assign xKeys (.append xKeys (.var "key".toList)) :: .declare "v".toList (goTypeOf nm n t) :: (makeStmts xV (t.ctor nm n) ++
      [.assign xValues (.append xValues xV), .ret (wrapped (t.wrapper nm n) lastValue)])) h) _
  have hr0 : List.lookup "r".toList [("r".toList, g), ("key".toList, .str key)] = some (.keyed (.named W) (.ptr (.dict (goTypeOf nm n t)) p) w) := by
    rw [look_self, hg]
  have hkeys : step P [("r".toList, g), ("key".toList, .str key)] (.assign xKeys (.append xKeys (.var "key".toList))) h = (match h[w]? with
      | some (.wrapper ks v) => .ok (.next [("r".toList, g), ("key".toList, .str key)], h.set w (.wrapper (some (ks.getD [] ++ [key])) v))
      | _ => .error .panic) := by
    rw [step_assign (fun x hx => by cases hx), opd_keys hr0]
    simp only
    rw [value_append, value_keys hr0]
    have hs : value P [("r".toList, g), ("key".toList, .str key)] (.var "key".toList) h = .ok (.str key, h) :=
      value_var (by rw [look_skip (by decide), look_self])
    cases ho : h[w]? with
    | none => rfl
    | some o => cases o with
      | wrapper ks v =>
        simp only [hs, appendTo]
        simp only [store, ho]
      | _ => rfl
  simp only [memAppendMap]
  cases ho : h[w]? with
  | none => rw [ho] at hkeys; rw [steps_stop hkeys]; exact ⟨rfl, rfl⟩
  | some o => cases o with
    | var u => rw [ho] at hkeys; rw [steps_stop hkeys]; exact ⟨rfl, rfl⟩
    | map u => rw [ho] at hkeys; rw [steps_stop hkeys]; exact ⟨rfl, rfl⟩
    | wrapper ks vals =>
      rw [ho] at hkeys
      rw [steps_cons hkeys]
      have hl : w < h.length := (List.getElem?_eq_some_iff.mp ho).1
      simp only
      generalize (ks.getD [] ++ [key]) = ks'
      obtain ⟨vars, hv1, hv2, hv3⟩ := steps_make (hc _ hw) [("r".toList, g), ("key".toList, .str key)]
        [.assign xValues (.append xValues xV), .ret (wrapped (t.wrapper nm n) lastValue)] (h.set w (.wrapper (some ks') vals))
      rw [hv3]
      have hr : vars.lookup "r".toList = some (.keyed (.named W) (.ptr (.dict (goTypeOf nm n t)) p) w) := by
        rw [hv1 _ (by decide), hr0]
      rw [memNew_set hl] at hv2 ⊢
      have hkeep := memNew_keeps (env := n.env) (t := t.erase) hl
      rw [ho] at hkeep
      generalize memNew n.env t.erase h = m at hv2 hkeep ⊢
      obtain ⟨v, h1⟩ := m
      obtain ⟨hk1, hk2⟩ := hkeep
      simp only at hv2 hk1 hk2 ⊢
      have hl1 : w < h1.length := Nat.lt_of_lt_of_le hl hk2
      generalize hh1 : h1.set w (.wrapper (some ks') vals) = h1'
      have hx : value P vars xV h1' = .ok (.data (goTypeOf nm n t) v, h1') := value_var hv2
      have hw1 : h1'[w]? = some (.wrapper (some ks') vals) := by rw [← hh1, List.getElem?_set_self hl1]
      have hassign : step P vars (.assign xValues (.append xValues xV)) h1' = (match memAppend P.grow vals v h1 with
          | none => .error .panic
          | some (vals', _, h2) => .ok (.next vars, h2.set w (.wrapper (some ks') vals'))) := by
        rw [step_assign (fun x hx => by cases hx), opd_values hr]
        simp only
        rw [value_append, value_values hr, hw1]
        simp only [hx, appendTo_data]
        rw [← hh1, memAppend_set hk1]
        cases hm : memAppend P.grow vals v h1 with
        | none => rfl
        | some z =>
          obtain ⟨vals', q, h2⟩ := z
          obtain ⟨b, k, _, _, hle⟩ := memAppend_shape hm
          have hl2 : w < h2.length := Nat.lt_of_lt_of_le hl1 hle
          simp only [Option.map_some, store, Gv.asVar, List.getElem?_set_self hl2, List.set_set]
      cases hm : memAppend P.grow vals v h1 with
      | none => rw [hm] at hassign; rw [steps_stop hassign]; exact ⟨rfl, rfl⟩
      | some z =>
        obtain ⟨vals', q, h2⟩ := z
        obtain ⟨b, k, hs', hq, hle⟩ := memAppend_shape hm
        have hl2 : w < h2.length := Nat.lt_of_lt_of_le hl1 hle
        rw [hm] at hassign
        simp only at hassign ⊢
        rw [steps_cons hassign, steps_one]
        subst hs' hq
        have hl := opd_lastValue (P := P) (h := h2.set w (.wrapper (some ks') (.slice b (k + 1)))) hr
        rw [List.getElem?_set_self hl2] at hl
        simp only at hl
        cases hW : t.wrapper nm n with
        | none => exact ret_plain (hc _ hw) hw hW hl
        | some W' => exact ret_wrapped (hc _ hw) hw hW (opd_amp hl)
end
end Verif
