import Verif.Gen.MethodsRun
/-
Each method of a generated target, run.
-/
set_option linter.unusedSimpArgs false
namespace Verif
open Spec.GoT
open Spec.Go (goTypeOf nullTy GoTy Within)

section
variable {P : Pack} {nm : Namer} {n : NS} {t0 : PTy} {t : PTy}

/-! ### Steps -/

theorem look_self {x : Str} {g : Gv} {vs : Vars} : List.lookup x ((x, g) :: vs) = some g := by simp [List.lookup]
theorem look_skip {x y : Str} {g : Gv} {vs : Vars} (h : x ≠ y) : List.lookup x ((y, g) :: vs) = List.lookup x vs := by
  have : (x == y) = false := by simpa using h
  simp [List.lookup, this]

/-- What a method makes of how its body ends. -/
def finish (x : Except Stop (Spec.GoT.Flow × Mem)) : Except Stop (Option Gv × Mem) :=
  match x with
  | .error e => .error e
  | .ok (.next _, h) => .ok (none, h)
  | .ok (.done g, h) => .ok (g, h)

theorem run_eq (m : Method) (recv : Gv) (args : List Gv) (h : Mem) :
    m.run P recv args h = finish (steps P ((m.recv.1, recv) :: (m.params.map (·.1)).zip args) m.body h) := by
  unfold Method.run
  cases steps P ((m.recv.1, recv) :: (m.params.map (·.1)).zip args) m.body h with
  | error e => rfl
  | ok x => obtain ⟨f, h'⟩ := x; cases f <;> rfl

theorem steps_cons {vars vars' : Vars} {s : Spec.GoT.St} {ss : List Spec.GoT.St} {h h' : Mem} (hs : step P vars s h = .ok (.next vars', h')) :
    steps P vars (s :: ss) h = steps P vars' ss h' := by
  rw [steps, hs]; rfl

theorem steps_stop {vars : Vars} {s : Spec.GoT.St} {ss : List Spec.GoT.St} {h : Mem} {e : Stop} (hs : step P vars s h = .error e) :
    steps P vars (s :: ss) h = .error e := by
  rw [steps, hs]; rfl

theorem steps_done {vars : Vars} {s : Spec.GoT.St} {ss : List Spec.GoT.St} {h h' : Mem} {g : Option Gv} (hs : step P vars s h = .ok (.done g, h')) :
    steps P vars (s :: ss) h = .ok (.done g, h') := by
  rw [steps, hs]; rfl

theorem steps_one {vars : Vars} {s : Spec.GoT.St} {h : Mem} : steps P vars [s] h = step P vars s h := by
  rw [steps]
  cases step P vars s h with
  | error e => rfl
  | ok x => obtain ⟨f, h'⟩ := x; cases f <;> rfl

/-- An assignment to what is not a name. -/
theorem step_assign {vars : Vars} {l e : Spec.GoT.Ex} {h : Mem} (hl : ∀ x, l ≠ .var x) : step P vars (.assign l e) h =
    (match opd P vars l h with
      | .error s => .error s
      | .ok (o, h1) => match value P vars e h1 with
        | .error s => .error s
        | .ok (g, h2) => match o with
          | .val _ => .error .stuck
          | .loc l => match store h2 l g with
            | .error s => .error s
            | .ok h3 => .ok (.next vars, h3)) := by
  rw [step]
  · simp only [Bind.bind, Except.bind, Pure.pure, Except.pure]
    cases opd P vars l h with
    | error s => rfl
    | ok x =>
      obtain ⟨o, h1⟩ := x
      simp only
      cases value P vars e h1 with
      | error s => rfl
      | ok y =>
        obtain ⟨g, h2⟩ := y
        simp only
        cases o with
        | val v => rfl
        | loc l => simp only; cases store h2 l g <;> rfl
  · exact hl

theorem step_assign_var {vars : Vars} {x : Str} {e : Spec.GoT.Ex} {h : Mem} : step P vars (.assign (.var x) e) h =
    (match value P vars e h with
      | .error s => .error s
      | .ok (g, h2) => .ok (.next ((x, g) :: vars), h2)) := by
  rw [step]
  simp only [Bind.bind, Except.bind, Pure.pure, Except.pure]
  cases value P vars e h <;> rfl

theorem step_ret {vars : Vars} {e : Spec.GoT.Ex} {h : Mem} : step P vars (.ret e) h =
    (match opd P vars e h with
      | .error s => .error s
      | .ok (o, h1) => match result h1 o with
        | .error s => .error s
        | .ok (g, h2) => .ok (.done (some g), h2)) := by
  rw [step]
  simp only [Bind.bind, Except.bind, Pure.pure, Except.pure]
  cases opd P vars e h with
  | error s => rfl
  | ok x =>
    obtain ⟨o, h1⟩ := x
    simp only
    cases result h1 o <;> rfl

/-! ### Expressions -/

theorem opd_par {vars : Vars} {e : Spec.GoT.Ex} {h : Mem} : opd P vars (.par e) h = opd P vars e h := by rw [opd]

theorem opd_xR {vars : Vars} {g : Gv} {h : Mem} (hr : vars.lookup "r".toList = some g) : opd P vars xR h = .ok (.val g, h) := by
  rw [xR, opd, hr]

theorem opd_target {vars : Vars} {g tg : Gv} {h : Mem} (hr : vars.lookup "r".toList = some g) (hg : select P g "Target".toList = .ok (.val tg)) :
    opd P vars xTarget h = .ok (.val tg, h) := by
  simp only [xTarget, opd, opd_xR hr, Bind.bind, Except.bind, load, hg, Pure.pure, Except.pure]

/-- `*r.Target` -/
theorem opd_slice {vars : Vars} {g : Gv} {ty : GoTy} {p : Place} {h : Mem} (hr : vars.lookup "r".toList = some g)
    (hg : select P g "Target".toList = .ok (.val (.ptr ty p))) :
    opd P vars xSlice h = (match h.read p with
      | some _ => .ok (.loc (.at p ty), h)
      | none => .error .panic) := by
  rw [xSlice, opd, opd_target hr hg]
  simp only [Bind.bind, Except.bind, load, Pure.pure, Except.pure]
  cases h.read p <;> rfl

theorem select_lit {W : GoTy} {g : Gv} : select P (.lit W g) "Target".toList = .ok (.val g) := by simp [select]
theorem select_keyed {W : GoTy} {g : Gv} {a : Nat} : select P (.keyed W g a) "Target".toList = .ok (.val g) := by simp [select]

theorem ofVar_slice {ty : GoTy} {v : Var} : ofVar (.slice ty) v = .data (.slice ty) v := by cases v <;> rfl
theorem ofVar_dict {ty : GoTy} {v : Var} : ofVar (.dict ty) v = .data (.dict ty) v := by cases v <;> rfl

/-- The value of `*r.Target` -/
theorem value_slice {vars : Vars} {g : Gv} {ty : GoTy} {p : Place} {h : Mem} (hr : vars.lookup "r".toList = some g)
    (hg : select P g "Target".toList = .ok (.val (.ptr (.slice ty) p))) :
    value P vars xSlice h = (match h.read p with
      | some v => .ok (.data (.slice ty) v, h)
      | none => .error .panic) := by
  rw [value, opd_slice hr hg]
  cases hp : h.read p with
  | none => rfl
  | some v => simp only [Bind.bind, Except.bind, load, hp, ofVar_slice, Pure.pure, Except.pure]

/-- An index whose two parts are values. -/
theorem opd_idx {vars : Vars} {e i : Spec.GoT.Ex} {h : Mem} : opd P vars (.idx e i) h =
    (match value P vars e h with
      | .error s => .error s
      | .ok (g, h1) => match value P vars i h1 with
        | .error s => .error s
        | .ok (k, h2) => match index g k with
          | .error s => .error s
          | .ok o => .ok (o, h2)) := by
  simp only [opd, value, Bind.bind, Except.bind, Pure.pure, Except.pure]
  cases opd P vars e h with
  | error s => rfl
  | ok x =>
    obtain ⟨o, h1⟩ := x
    simp only
    cases load h1 o with
    | error s => rfl
    | ok g =>
      simp only
      cases opd P vars i h1 with
      | error s => rfl
      | ok y =>
        obtain ⟨o', h2⟩ := y
        simp only
        cases load h2 o' with
        | error s => rfl
        | ok k =>
          simp only
          cases index g k <;> rfl

theorem value_lenpred {vars : Vars} {e : Spec.GoT.Ex} {h : Mem} : value P vars (.pred (.len e)) h =
    (match value P vars e h with
      | .error s => .error s
      | .ok (g, h1) => match length g with
        | .error s => .error s
        | .ok k => .ok (.int ((k : Int) - 1), h1)) := by
  simp only [opd, value, Bind.bind, Except.bind, Pure.pure, Except.pure]
  cases opd P vars e h with
  | error s => rfl
  | ok x =>
    obtain ⟨o, h1⟩ := x
    simp only
    cases load h1 o with
    | error s => rfl
    | ok g =>
      simp only
      cases length g <;> rfl

/-- The last item of a slice: `e[len(e)-1]` -/
theorem opd_last {vars : Vars} {e e' : Spec.GoT.Ex} {h : Mem} {ty : GoTy} {v : Var}
    (he : value P vars e h = .ok (.data (.slice ty) v, h)) (he' : value P vars e' h = .ok (.data (.slice ty) v, h)) :
    opd P vars (.idx e (.pred (.len e'))) h = (match (generalizing := false) v with
      | .slice a (k + 1) => .ok (.loc (.at ⟨a, [k]⟩ ty), h)
      | _ => .error .panic) := by
  rw [opd_idx, he]
  simp only
  rw [value_lenpred, he']
  cases v with
  | slice a k =>
    cases k with
    | zero => simp [length, index]
    | succ k =>
      have h1 : (0 : Int) ≤ ((k + 1 : Nat) : Int) - 1 ∧ ((k + 1 : Nat) : Int) - 1 < ((k + 1 : Nat) : Int) := by omega
      have h2 : (((k + 1 : Nat) : Int) - 1).toNat = k := by omega
      simp only [length, index]
      rw [if_pos h1, h2]
  | nil => rfl
  | _ => rfl

theorem opd_lastItem {vars : Vars} {g : Gv} {ty : GoTy} {p : Place} {h : Mem} (hr : vars.lookup "r".toList = some g)
    (hg : select P g "Target".toList = .ok (.val (.ptr (.slice ty) p))) :
    opd P vars lastItem h = (match h.read p with
      | some (.slice a (k + 1)) => .ok (.loc (.at ⟨a, [k]⟩ ty), h)
      | _ => .error .panic) := by
  have hv := value_slice (h := h) hr hg
  have hv' : value P vars (.par xSlice) h = value P vars xSlice h := by simp only [value, opd_par]
  cases hp : h.read p with
  | none =>
    rw [hp] at hv
    rw [lastItem, opd_idx, hv', hv]
  | some v =>
    rw [hp] at hv
    rw [lastItem, opd_last (hv'.trans hv) hv]
    cases v with
    | slice a k => cases k <;> rfl
    | _ => rfl

/-! The wrapper of a map -/

theorem opd_keys {vars : Vars} {W : GoTy} {g : Gv} {w : Nat} {h : Mem} (hr : vars.lookup "r".toList = some (.keyed W g w)) :
    opd P vars xKeys h = .ok (.loc (.keys w), h) := by
  have hs : select P (.keyed W g w) "keys".toList = .ok (.loc (.keys w)) := by
    simp only [select]; rw [if_neg (by decide), if_pos trivial]
  simp only [xKeys, opd, opd_xR hr, Bind.bind, Except.bind, load, hs, Pure.pure, Except.pure]

theorem value_keys {vars : Vars} {W : GoTy} {g : Gv} {w : Nat} {h : Mem} (hr : vars.lookup "r".toList = some (.keyed W g w)) :
    value P vars xKeys h = (match h[w]? with
      | some (.wrapper ks _) => .ok (.strs ks, h)
      | _ => .error .panic) := by
  rw [value, opd_keys hr]
  simp only [Bind.bind, Except.bind, load, Pure.pure, Except.pure]
  cases h[w]? with
  | none => rfl
  | some o => cases o <;> rfl

theorem opd_values {vars : Vars} {W ty : GoTy} {p : Place} {w : Nat} {h : Mem} (hr : vars.lookup "r".toList = some (.keyed W (.ptr (.dict ty) p) w)) :
    opd P vars xValues h = .ok (.loc (.values w (.slice ty)), h) := by
  have hs : select P (.keyed W (.ptr (.dict ty) p) w) "values".toList = .ok (.loc (.values w (.slice ty))) := by
    simp only [select]; rw [if_neg (by decide), if_neg (by decide), if_pos trivial]
  simp only [xValues, opd, opd_xR hr, Bind.bind, Except.bind, load, hs, Pure.pure, Except.pure]

theorem value_values {vars : Vars} {W ty : GoTy} {p : Place} {w : Nat} {h : Mem} (hr : vars.lookup "r".toList = some (.keyed W (.ptr (.dict ty) p) w)) :
    value P vars xValues h = (match h[w]? with
      | some (.wrapper _ v) => .ok (.data (.slice ty) v, h)
      | _ => .error .panic) := by
  rw [value, opd_values hr]
  simp only [Bind.bind, Except.bind, load, Pure.pure, Except.pure]
  cases h[w]? with
  | none => rfl
  | some o => cases o <;> rfl

theorem opd_lastValue {vars : Vars} {W ty : GoTy} {p : Place} {w : Nat} {h : Mem} (hr : vars.lookup "r".toList = some (.keyed W (.ptr (.dict ty) p) w)) :
    opd P vars lastValue h = (match h[w]? with
      | some (.wrapper _ (.slice a (k + 1))) => .ok (.loc (.at ⟨a, [k]⟩ ty), h)
      | _ => .error .panic) := by
  have hv := value_values (P := P) (h := h) hr
  cases hp : h[w]? with
  | none => rw [hp] at hv; rw [lastValue, opd_idx, hv]
  | some o =>
    cases o with
    | wrapper ks v =>
      rw [hp] at hv
      rw [lastValue, opd_last hv hv]
      cases v with
      | slice a k => cases k <;> rfl
      | _ => rfl
    | _ => rw [hp] at hv; rw [lastValue, opd_idx, hv]
end
end Verif
