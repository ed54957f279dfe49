import Verif.Gen.MethodsAppend
/-
Each method of a generated target, run: those without a result.
-/
set_option linter.unusedSimpArgs false
namespace Verif
open Spec.GoT
open Spec.Go (goTypeOf nullTy GoTy Within)

section
variable {P : Pack} {nm : Namer} {n : NS} {t0 : PTy} {t : PTy}

/-- What a method without a result has to do. -/
def Did (s : MTgt) (x : Except Stop (Option Gv × Mem)) : Except Err MState → Prop
  | .ok (s', h) => s' = s ∧ ∃ o, x = .ok (o, h)
  | .error e => e = .panic ∧ x = .error .panic

/-- A method that only panics. -/
theorem run_panics {m : Method} {text : Str} (hb : m.body = [.panic text]) (recv : Gv) (args : List Gv) (h : Mem) :
    m.run P recv args h = .error .panic := by
  rw [run_eq, hb, steps_one, step]; rfl

/-- A method that does nothing. -/
theorem run_empty {m : Method} (hb : m.body = []) (recv : Gv) (args : List Gv) (h : Mem) :
    m.run P recv args h = .ok (none, h) := by
  rw [run_eq, hb, steps]; rfl

/-! ### Records -/

theorem choose_null : ∀ (fs : List PField) (k : Nat) (i : Int) (vars : Vars) (h : Mem), choose P vars i (nullCases nm k fs) h =
    (if i < k then .ok (.next vars, h) else match fs[i.toNat - k]? with
      | none => .ok (.next vars, h)
      | some f => if f.ty.nullable then steps P vars [.assign (.sel xR (fieldGoName nm f.name)) .nil, .leave] h else .ok (.next vars, h))
  | [], k, i, vars, h => by simp [nullCases, choose]
  | f :: fs, k, i, vars, h => by
    have rest : i ≠ k → choose P vars i (nullCases nm (k + 1) fs) h = (if i < k then .ok (.next vars, h) else match (f :: fs)[i.toNat - k]? with
        | none => .ok (.next vars, h)
        | some f => if f.ty.nullable then steps P vars [.assign (.sel xR (fieldGoName nm f.name)) .nil, .leave] h else .ok (.next vars, h)) := by
      intro h0
      rw [choose_null fs (k + 1)]
      by_cases h1 : i < k
      · rw [if_pos (by omega), if_pos h1]
      · rw [if_neg (by omega), if_neg h1]
        have : i.toNat - k = (i.toNat - (k + 1)) + 1 := by omega
        rw [this]; rfl
    rw [nullCases]
    cases hn : f.ty.nullable with
    | true =>
      rw [if_pos rfl]
      simp only [List.cons_append, List.nil_append]
      rw [choose]
      by_cases h0 : i = k
      · subst h0
        rw [if_pos rfl, if_neg (by omega)]
        simp [hn]
      · rw [if_neg h0, rest h0]
    | false =>
      rw [if_neg (by decide)]
      simp only [List.nil_append]
      by_cases h0 : i = k
      · subst h0
        rw [choose_null fs (k + 1), if_pos (by omega), if_neg (by omega)]
        simp [hn]
      · rw [rest h0]

theorem run_recordNull {q : QName} {d : PDef} {fs : List PField} {doc : Str} (hc : Carries P nm n (.ref q)) (hd : n.find q = some d)
    (hk : d.kind = .record fs doc) (p : Place) (i : Int) (h : Mem) :
    Did (.record (fs.map PField.erase) p) ((recordNull nm (d.goName nm) fs).run P (.ptr (.named (d.goName nm)) p) [.int i] h)
      (memNullField (.record (fs.map PField.erase) p, h) i) := by
  rw [run_eq]
  show Did _ (finish (steps P [("r".toList, .ptr (.named (d.goName nm)) p), ("i".toList, .int i)]
    [.switch xI (nullCases nm 0 fs), .panic "Not a nullable field index".toList] h)) _
  rw [steps_switch (by rw [look_skip (by decide), look_self]), choose_null]
  simp only [memNullField]
  by_cases h0 : i < 0
  · have h0' : i < ((0 : Nat) : Int) := h0
    rw [if_pos h0', if_pos h0]; exact ⟨rfl, rfl⟩
  · have h0' : ¬ i < ((0 : Nat) : Int) := h0
    rw [if_neg h0', if_neg h0]
    simp only [Nat.sub_zero, List.getElem?_map]
    cases hf : fs[i.toNat]? with
    | none => exact ⟨rfl, rfl⟩
    | some f =>
      have hs : (PTy.ref q).struct nm n = some ⟨fs.map fun f => (fieldGoName nm f.name, goTypeOf nm n f.ty), false⟩ := by
        simp only [PTy.struct, hd, hk]
      obtain ⟨hs1, hs2, _⟩ := hc.struct _ hs
      rw [goName_ref hd] at hs1
      have hfield := fieldAt_get (k := 0) (i := i.toNat) (F := fieldGoName nm f.name) (ty := goTypeOf nm n f.ty) hs2 (by rw [List.getElem?_map, hf]; rfl)
      rw [Nat.zero_add] at hfield
      simp only [Option.map_some, PField.erase]
      rw [nullable_erase]
      cases hn : f.ty.erase.nullable with
      | false => exact ⟨rfl, rfl⟩
      | true =>
        simp only [if_pos]
        refine ⟨rfl, none, ?_⟩
        rw [steps_cons (vars' := [("r".toList, .ptr (.named (d.goName nm)) p), ("i".toList, .int i)]) (h' := h.write (p.field i.toNat) .nil)]
        · rw [steps_one, step]; rfl
        · rw [step_assign (fun x hx => by cases hx), opd_field look_self hs1 hfield]
          rfl

/-! ### Unions -/

theorem run_unionSetLong {name : Str} {ts : List PTy} {d : List Json} (hc : Carries P nm n (.union name ts d)) (p : Place) (v : BitVec 64) (h : Mem) :
    Did (.union (PTy.erases ts) p) ((unionSetLong ((PTy.union name ts d).goName nm n)).run P
        (.ptr (.named ((PTy.union name ts d).goName nm n)) p) [.int64 v] h)
      (memSetLong (.union (PTy.erases ts) p, h) v) := by
  rw [run_eq]
  obtain ⟨hs1, _, hs3⟩ := hc.struct _ rfl
  have hno : ∀ {fs : List (Str × GoTy)} {k : Nat}, "UnionType".toList ∉ fs.map (·.1) → fieldAt "UnionType".toList k fs = none := by
    intro fs
    induction fs with
    | nil => intro k _; rfl
    | cons f fs ih =>
      intro k hm
      obtain ⟨g, u⟩ := f
      have hne : g ≠ "UnionType".toList := fun e => hm (by simp [e])
      rw [fieldAt, if_neg hne]
      exact ih fun hm' => hm (List.mem_cons_of_mem _ hm')
  show Did _ (finish (steps P [("r".toList, .ptr (.named ((PTy.union name ts d).goName nm n)) p), ("v".toList, .int64 v)]
    [.assign (.sel xR "UnionType".toList) (.cast (.named (unionEnumType ((PTy.union name ts d).goName nm n))) xV)] h)) _
  have hsel : opd P [("r".toList, .ptr (.named ((PTy.union name ts d).goName nm n)) p), ("v".toList, .int64 v)] (.sel xR "UnionType".toList) h =
      .ok (.loc (.tag p), h) := by
    simp only [opd, opd_xR look_self, Bind.bind, Except.bind, load, select, hs1, hno hs3, Pure.pure, Except.pure]
    rw [if_pos ⟨trivial, trivial⟩]
  have hval : value P [("r".toList, .ptr (.named ((PTy.union name ts d).goName nm n)) p), ("v".toList, .int64 v)]
      (.cast (.named (unionEnumType ((PTy.union name ts d).goName nm n))) xV) h = .ok (.int64 v, h) := by
    rw [value, opd, xV, opd, look_skip (by decide), look_self]; rfl
  rw [steps_one, step_assign (fun x hx => by cases hx), hsel]
  simp only [hval, store, memSetLong]
  cases h.read p with
  | none => exact ⟨rfl, rfl⟩
  | some u => cases u with
    | struct tag fs => exact ⟨rfl, none, rfl⟩
    | _ => exact ⟨rfl, rfl⟩

/-! ### Arrays -/

theorem run_arrayNull (W : Str) (p : Place) (i : Int) (h : Mem) :
    Did (.array t.erase p) ((arrayNull W t.nullable).run P (.lit (.named W) (.ptr (.slice (goTypeOf nm n t)) p)) [.int i] h)
      (memNullField (.array t.erase p, h) i) := by
  rw [run_eq]
  simp only [memNullField]
  rw [← nullable_erase]
  cases hn : t.nullable with
  | false =>
    show Did _ (finish (steps P _ [.panic unsupported] h)) _
    rw [steps_one, step]; exact ⟨rfl, rfl⟩
  | true =>
    rw [if_pos rfl]
    show Did _ (finish (steps P [("r".toList, .lit (.named W) (.ptr (.slice (goTypeOf nm n t)) p)), ("i".toList, .int i)] [.assign lastItem .nil] h)) _
    rw [steps_one, step_assign (fun x hx => by cases hx), opd_lastItem look_self select_lit]
    cases h.read p with
    | none => exact ⟨rfl, rfl⟩
    | some v => cases v with
      | slice a k => cases k with
        | zero => exact ⟨rfl, rfl⟩
        | succ k => exact ⟨rfl, none, rfl⟩
      | _ => exact ⟨rfl, rfl⟩

theorem value_makeRoom {vars : Vars} {x : Str} {ty : GoTy} {c : Int} {h : Mem} (hx : vars.lookup x = some (.int c)) :
    value P vars (.makeRoom ty (.var x)) h = if c < 0 ∨ (P.lim : Int) < c then .error .panic else
      .ok (.data ty (.slice h.length 0), h ++ [.var (.struct 0 (List.replicate c.toNat .junk))]) := by
  simp only [value, opd, hx, Bind.bind, Except.bind, load, Pure.pure, Except.pure]
  by_cases hc : c < 0 ∨ (P.lim : Int) < c
  · rw [if_pos hc, if_pos hc]
  · rw [if_neg hc, if_neg hc]; rfl

theorem run_arrayHint (W : Str) (p : Place) (c : BitVec 64) (h : Mem) :
    Did (.array t.erase p) ((arrayHint W (.slice (goTypeOf nm n t))).run P (.lit (.named W) (.ptr (.slice (goTypeOf nm n t)) p)) [.int c.toInt] h)
      (memHintSize P.lim (.array t.erase p, h) c) := by
  rw [run_eq]
  show Did _ (finish (steps P [("r".toList, .lit (.named W) (.ptr (.slice (goTypeOf nm n t)) p)), ("s".toList, .int c.toInt)]
    [.cond (.eq (.len xSlice) (.num 0)) [.assign xSlice (.makeRoom (.slice (goTypeOf nm n t)) (.var "s".toList))]] h)) _
  generalize hvars : [("r".toList, Gv.lit (.named W) (.ptr (.slice (goTypeOf nm n t)) p)), ("s".toList, .int c.toInt)] = vars
  have hr : vars.lookup "r".toList = some (.lit (.named W) (.ptr (.slice (goTypeOf nm n t)) p)) := by rw [← hvars, look_self]
  have hs : vars.lookup "s".toList = some (.int c.toInt) := by rw [← hvars, look_skip (by decide), look_self]
  have hcond : value P vars (.eq (.len xSlice) (.num 0)) h = (match h.read p with
      | none => .error .panic
      | some v => match v.len with
        | none => .error .panic
        | some k => .ok (.bool (decide ((k : Int) = 0)), h)) := by
    have hv := value_slice (h := h) hr (select_lit (P := P))
    simp only [value, opd, Bind.bind, Except.bind, Pure.pure, Except.pure] at hv ⊢
    cases ho : opd P vars xSlice h with
    | error e =>
      rw [ho] at hv
      simp only at hv ⊢
      cases hp : h.read p with
      | none => rw [hp] at hv; cases hv; rfl
      | some v => rw [hp] at hv; cases hv
    | ok x =>
      obtain ⟨o, h1⟩ := x
      rw [ho] at hv
      simp only at hv ⊢
      cases hl : load h1 o with
      | error e =>
        rw [hl] at hv
        cases hp : h.read p with
        | none => rw [hp] at hv; cases hv; rfl
        | some v => rw [hp] at hv; cases hv
      | ok g =>
        rw [hl] at hv
        cases hp : h.read p with
        | none => rw [hp] at hv; cases hv
        | some v =>
          rw [hp] at hv
          cases hv
          cases v <;> simp [length, Var.len, load, equal]
  rw [steps_one, step]
  simp only [hcond, memHintSize]
  cases hp : h.read p with
  | none => exact ⟨rfl, rfl⟩
  | some v =>
    simp only
    cases v.len with
    | none => exact ⟨rfl, rfl⟩
    | some k =>
      cases k with
      | succ k =>
        have : decide (((k + 1 : Nat) : Int) = 0) = false := by simp; omega
        simp only [this, Bind.bind, Except.bind]
        exact ⟨rfl, none, rfl⟩
      | zero =>
        simp only [Bind.bind, Except.bind]
        show Did _ (finish (steps P vars _ h)) _
        rw [steps_one, step_assign (fun x hx => by cases hx), opd_slice hr select_lit, hp]
        simp only
        rw [value_makeRoom hs]
        by_cases hc : c.toInt < 0 ∨ (P.lim : Int) < c.toInt
        · rw [if_pos hc, if_pos hc]; exact ⟨rfl, rfl⟩
        · rw [if_neg hc, if_neg hc]; exact ⟨rfl, none, rfl⟩

/-! ### Maps -/

theorem run_mapNull (W : Str) (p : Place) (w : Nat) (i : Int) (h : Mem) :
    Did (.map t.erase p w) ((mapNull W t.nullable).run P (.keyed (.named W) (.ptr (.dict (goTypeOf nm n t)) p) w) [.int i] h)
      (memNullField (.map t.erase p w, h) i) := by
  rw [run_eq]
  simp only [memNullField]
  rw [← nullable_erase]
  cases hn : t.nullable with
  | false =>
    show Did _ (finish (steps P _ [.panic unsupported] h)) _
    rw [steps_one, step]; exact ⟨rfl, rfl⟩
  | true =>
    rw [if_pos rfl]
    show Did _ (finish (steps P [("r".toList, .keyed (.named W) (.ptr (.dict (goTypeOf nm n t)) p) w), ("_".toList, .int i)] [.assign lastValue .nil] h)) _
    rw [steps_one, step_assign (fun x hx => by cases hx), opd_lastValue look_self]
    cases h[w]? with
    | none => exact ⟨rfl, rfl⟩
    | some o => cases o with
      | wrapper ks v => cases v with
        | slice a k => cases k with
          | zero => exact ⟨rfl, rfl⟩
          | succ k => exact ⟨rfl, none, rfl⟩
        | _ => exact ⟨rfl, rfl⟩
      | _ => exact ⟨rfl, rfl⟩

theorem run_mapHint (W : Str) (p : Place) (w : Nat) (c : BitVec 64) (h : Mem) :
    Did (.map t.erase p w) ((mapHint W (goTypeOf nm n t)).run P (.keyed (.named W) (.ptr (.dict (goTypeOf nm n t)) p) w) [.int c.toInt] h)
      (memHintSize P.lim (.map t.erase p w, h) c) := by
  rw [run_eq]
  show Did _ (finish (steps P [("r".toList, .keyed (.named W) (.ptr (.dict (goTypeOf nm n t)) p) w), ("s".toList, .int c.toInt)]
    [.cond (.eq xKeys .nil) [.assign xKeys (.makeKeys (.var "s".toList)), .assign xValues (.makeRoom (.slice (goTypeOf nm n t)) (.var "s".toList))]] h)) _
  generalize hvars : [("r".toList, Gv.keyed (.named W) (.ptr (.dict (goTypeOf nm n t)) p) w), ("s".toList, .int c.toInt)] = vars
  have hr : vars.lookup "r".toList = some (.keyed (.named W) (.ptr (.dict (goTypeOf nm n t)) p) w) := by rw [← hvars, look_self]
  have hs : vars.lookup "s".toList = some (.int c.toInt) := by rw [← hvars, look_skip (by decide), look_self]
  have hcond : value P vars (.eq xKeys .nil) h = (match h[w]? with
      | some (.wrapper ks _) => .ok (.bool (decide (ks = none)), h)
      | _ => .error .panic) := by
    simp only [value, opd, opd_keys hr, Bind.bind, Except.bind, load, Pure.pure, Except.pure]
    cases h[w]? with
    | none => rfl
    | some o => cases o <;> rfl
  rw [steps_one, step]
  simp only [hcond, memHintSize]
  cases ho : h[w]? with
  | none => exact ⟨rfl, rfl⟩
  | some o => cases o with
    | wrapper ks v =>
      cases ks with
      | some ks => exact ⟨rfl, none, rfl⟩
      | none =>
        have hl : w < h.length := (List.getElem?_eq_some_iff.mp ho).1
        simp only [Bind.bind, Except.bind]
        show Did _ (finish (steps P vars _ h)) _
        have hk : step P vars (.assign xKeys (.makeKeys (.var "s".toList))) h = if c.toInt < 0 ∨ (P.lim : Int) < c.toInt then .error .panic else
            .ok (.next vars, h.set w (.wrapper (some []) v)) := by
          rw [step_assign (fun x hx => by cases hx), opd_keys hr]
          simp only [value, opd, hs, Bind.bind, Except.bind, load, Pure.pure, Except.pure]
          by_cases hc : c.toInt < 0 ∨ (P.lim : Int) < c.toInt
          · rw [if_pos hc, if_pos hc]
          · rw [if_neg hc, if_neg hc]
            simp only [store, ho]
        by_cases hc : c.toInt < 0 ∨ (P.lim : Int) < c.toInt
        · rw [if_pos hc] at hk
          rw [steps_stop hk, if_pos hc]; exact ⟨rfl, rfl⟩
        · rw [if_neg hc] at hk
          rw [steps_cons hk, if_neg hc, steps_one, step_assign (fun x hx => by cases hx), opd_values hr]
          simp only
          rw [value_makeRoom hs, if_neg hc]
          simp only [store, Gv.asVar]
          rw [append_set hl, List.getElem?_set_self (by simp; omega)]
          simp only [List.set_set, List.length_set]
          exact ⟨rfl, none, rfl⟩
    | _ => exact ⟨rfl, rfl⟩
end
end Verif
