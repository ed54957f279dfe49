import Verif.Gen.MethodsOps
/-
Each method of a generated target, run: `Get` and the methods that append.
-/
set_option linter.unusedSimpArgs false
namespace Verif
open Spec.GoT
open Spec.Go (goTypeOf nullTy GoTy Within)

section
variable {P : Pack} {nm : Namer} {n : NS} {t0 : PTy} {t : PTy}

/-- `var v T; v = NewT()` -/
theorem steps_make (hh : Carries P nm n t) (vars : Vars) (rest : List Spec.GoT.St) (h : Mem) : ∃ vars' : Vars,
    (∀ x, x ≠ "v".toList → vars'.lookup x = vars.lookup x) ∧
    vars'.lookup "v".toList = some (.data (goTypeOf nm n t) (memNew n.env t.erase h).1) ∧
    steps P vars (.declare "v".toList (goTypeOf nm n t) :: (makeStmts xV (t.ctor nm n) ++ rest)) h =
      steps P vars' rest (memNew n.env t.erase h).2 := by
  rw [steps_cons (by rw [step])]
  cases hc : t.ctor nm n with
  | none =>
    obtain ⟨h1, h2⟩ := no_ctor hh hc h
    refine ⟨("v".toList, zero (goTypeOf nm n t)) :: vars, fun x hx => look_skip hx, ?_, ?_⟩
    · rw [look_self, h1]
    · rw [h2]; rfl
  | some c =>
    refine ⟨("v".toList, .data (goTypeOf nm n t) (memNew n.env t.erase h).1) :: ("v".toList, zero (goTypeOf nm n t)) :: vars,
      fun x hx => by rw [look_skip hx, look_skip hx], look_self, ?_⟩
    simp only [makeStmts, List.cons_append, List.nil_append]
    rw [steps_cons (by rw [xV, step_assign_var, ctor_value hh hc])]

/-- `r.F = NewT()` -/
theorem steps_construct (hh : Carries P nm n t) {vars : Vars} {l : Spec.GoT.Ex} {p : Place} (hl : ∀ x, l ≠ .var x)
    (ho : ∀ h, opd P vars l h = .ok (.loc (.at p (goTypeOf nm n t)), h)) (rest : List Spec.GoT.St) (h : Mem) :
    steps P vars (makeStmts l (t.ctor nm n) ++ rest) h = steps P vars rest (match t.ctor nm n with
      | none => h
      | some _ => (memNew n.env t.erase h).2.write p (memNew n.env t.erase h).1) := by
  cases hc : t.ctor nm n with
  | none => rfl
  | some c =>
    simp only [makeStmts, List.cons_append, List.nil_append]
    rw [steps_cons]
    rw [step_assign hl, ho]
    simp only [ctor_value hh hc]
    rfl

theorem opd_amp {vars : Vars} {l : Spec.GoT.Ex} {p : Place} {ty : GoTy} {h : Mem} (ho : opd P vars l h = .ok (.loc (.at p ty), h)) :
    opd P vars (.amp l) h = .ok (.val (.ptr ty p), h) := by
  rw [opd, ho]; rfl

theorem opd_lit {vars : Vars} {e : Spec.GoT.Ex} {W : GoTy} {g : Gv} {h h' : Mem} (ho : opd P vars e h = .ok (.val g, h')) :
    opd P vars (.lit W e) h = .ok (.val (.lit W g), h') := by
  rw [opd, ho]; rfl

theorem opd_ampLit {vars : Vars} {e : Spec.GoT.Ex} {W : GoTy} {g : Gv} {h h' : Mem} (ho : opd P vars e h = .ok (.val (.lit W g), h')) :
    opd P vars (.amp e) h = if P.keyed W then .ok (.val (.keyed W g h'.length), h' ++ [.wrapper none .nil]) else .ok (.val (.lit W g), h') := by
  rw [opd, ho]
  simp only [Bind.bind, Except.bind, address]
  by_cases hk : P.keyed W = true
  · rw [if_pos hk, if_pos hk]; rfl
  · rw [if_neg hk, if_neg hk]; rfl

theorem result_lit {W : GoTy} {g : Gv} {h : Mem} : result h (.val (.lit W g)) = .ok (.lit W g, h) := rfl
theorem result_keyed {W : GoTy} {g : Gv} {a : Nat} {h : Mem} : result h (.val (.keyed W g a)) = .ok (.keyed W g a, h) := rfl

/-- `return &W{Target: &l}`, if there is a wrapper. -/
theorem ret_wrapped (hh : Carries P nm n t) (hw : Within n t0 t) {vars : Vars} {e : Spec.GoT.Ex} {p : Place} {h : Mem} {W : GoTy}
    (hW : t.wrapper nm n = some W) (ho : opd P vars e h = .ok (.val (.ptr (goTypeOf nm n t) p), h)) :
    Opened nm n t0 (step P vars (.ret (.amp (.lit W e))) h) (memTarget n.env t.erase p h) := by
  have hk := hh.keyed W hW
  rw [step_ret, opd_ampLit (opd_lit ho), hk]
  cases hm : t.isMap with
  | false =>
    obtain ⟨s, h1, h2⟩ := target_wrapped hh hw hW hm p h
    rw [h1]
    exact ⟨_, rfl, h2⟩
  | true =>
    obtain ⟨s, h1, h2⟩ := target_map hw hW hm p h
    rw [h1]
    exact ⟨_, rfl, h2⟩

/-- `return l`, if there is none. -/
theorem ret_plain (hh : Carries P nm n t) (hw : Within n t0 t) {vars : Vars} {e : Spec.GoT.Ex} {p : Place} {h : Mem}
    (hW : t.wrapper nm n = none) (ho : opd P vars e h = .ok (.loc (.at p (goTypeOf nm n t)), h)) :
    Opened nm n t0 (step P vars (.ret e) h) (memTarget n.env t.erase p h) := by
  rw [step_ret, ho]
  have := target_plain hh hw hW p h
  cases hm : memTarget n.env t.erase p h with
  | error e' =>
    rw [hm] at this
    simp only [this.2]
    exact ⟨this.1, rfl⟩
  | ok x =>
    obtain ⟨s, h'⟩ := x
    rw [hm] at this
    obtain ⟨g, h1, h2⟩ := this
    simp only [h1]
    exact ⟨g, rfl, h2⟩

/-- `w := W{Target: &r.F}; return w` -/
theorem ret_named (hh : Carries P nm n t) (hw : Within n t0 t) {vars : Vars} {e : Spec.GoT.Ex} {p : Place} {h : Mem} {W : GoTy}
    (hW : t.wrapper nm n = some W) (ho : opd P vars e h = .ok (.loc (.at p (goTypeOf nm n t)), h)) :
    Opened nm n t0 (steps P vars [.define "w".toList (.lit W (.amp e)),
        .ret (if t.isMap then .amp (.var "w".toList) else .var "w".toList)] h) (memTarget n.env t.erase p h) := by
  have hd : step P vars (.define "w".toList (.lit W (.amp e))) h =
      .ok (.next (("w".toList, .lit W (.ptr (goTypeOf nm n t) p)) :: vars), h) := by
    rw [step, value, opd_lit (opd_amp ho)]; rfl
  rw [steps_cons hd, steps_one, step_ret]
  have hv : opd P (("w".toList, .lit W (.ptr (goTypeOf nm n t) p)) :: vars) (.var "w".toList) h =
      .ok (.val (.lit W (.ptr (goTypeOf nm n t) p)), h) := by rw [opd, look_self]
  have hk := hh.keyed W hW
  cases hm : t.isMap with
  | false =>
    obtain ⟨s, h1, h2⟩ := target_wrapped hh hw hW hm p h
    rw [h1, if_neg (by decide), hv]
    exact ⟨_, rfl, h2⟩
  | true =>
    obtain ⟨s, h1, h2⟩ := target_map hw hW hm p h
    rw [h1, if_pos rfl, opd_ampLit hv, hk, hm]
    exact ⟨_, rfl, h2⟩

/-! ### Get -/

/-- A case of `Get` of a record. -/
theorem recordOpen_opens (hh : Carries P nm n f.ty) (hw : Within n t0 f.ty) {vars : Vars} {p : Place} {h : Mem}
    (ho : ∀ h, opd P vars (.sel xR (fieldGoName nm f.name)) h = .ok (.loc (.at p (goTypeOf nm n f.ty)), h)) :
    Opened nm n t0 (steps P vars (recordOpen nm n f) h) (memOpen n.env f.ty.erase p h) := by
  rw [recordOpen, steps_construct hh (fun x hx => by cases hx) ho, memOpen_eq hh]
  cases hW : f.ty.wrapper nm n with
  | none => simp only; rw [steps_one]; exact ret_plain hh hw hW (ho _)
  | some W => exact ret_named hh hw hW (ho _)

/-- A case of `Get` of a union. -/
theorem unionOpen_opens (hh : Carries P nm n t) (hw : Within n t0 t) {vars : Vars} {p : Place} {h : Mem}
    (ho : ∀ h, opd P vars (.sel xR (t.goName nm n)) h = .ok (.loc (.at p (goTypeOf nm n t)), h)) :
    Opened nm n t0 (steps P vars (unionOpen nm n t) h) (memOpen n.env t.erase p h) := by
  rw [unionOpen, steps_construct hh (fun x hx => by cases hx) ho, memOpen_eq hh]
  cases hW : t.wrapper nm n with
  | none => simp only; rw [steps_one]; exact ret_plain hh hw hW (ho _)
  | some W => simp only; rw [steps_one]; exact ret_wrapped hh hw hW (by rw [opd_par]; exact opd_amp (ho _))

/-- A field of the struct `r` points to. -/
theorem opd_field {vars : Vars} {T F : Str} {p : Place} {s : StructTy} {i : Nat} {ty : GoTy} (hr : vars.lookup "r".toList = some (.ptr (.named T) p))
    (hs : P.structs T = some s) (hf : fieldAt F 0 s.fields = some (i, ty)) (h : Mem) :
    opd P vars (.sel xR F) h = .ok (.loc (.at (p.field i) ty), h) := by
  simp only [opd, opd_xR hr, Bind.bind, Except.bind, load, select, hs, hf, Pure.pure, Except.pure]

/-- Fields with distinct names are found by name. -/
theorem fieldAt_get : ∀ {fs : List (Str × GoTy)} {i k : Nat} {F : Str} {ty : GoTy}, (fs.map (·.1)).Nodup → fs[i]? = some (F, ty) →
    fieldAt F k fs = some (k + i, ty)
  | [], i, k, F, ty, _, h => by simp at h
  | (g, u) :: fs, 0, k, F, ty, _, h => by
    cases h
    rw [fieldAt, if_pos rfl]; rfl
  | (g, u) :: fs, i + 1, k, F, ty, hn, h => by
    have hm : F ∈ fs.map (·.1) := List.mem_map.mpr ⟨(F, ty), List.mem_of_getElem? h, rfl⟩
    have hne : g ≠ F := by
      intro he; subst he
      exact (List.nodup_cons.mp hn).1 hm
    rw [fieldAt, if_neg hne, fieldAt_get (List.nodup_cons.mp hn).2 h]
    congr 2; omega

theorem choose_record : ∀ (fs : List PField) (k : Nat) (i : Int) (vars : Vars) (h : Mem), choose P vars i (recordCases nm n k fs) h =
    (if i < k then .ok (.next vars, h) else match fs[i.toNat - k]? with
      | none => .ok (.next vars, h)
      | some f => steps P vars (recordOpen nm n f) h)
  | [], k, i, vars, h => by simp [recordCases, choose]
  | f :: fs, k, i, vars, h => by
    rw [recordCases, choose]
    by_cases h0 : i = k
    · subst h0
      rw [if_pos rfl, if_neg (by omega)]
      simp
    · rw [if_neg h0, choose_record fs (k + 1)]
      by_cases h1 : i < k
      · rw [if_pos (by omega), if_pos h1]
      · rw [if_neg (by omega), if_neg h1]
        have : i.toNat - k = (i.toNat - (k + 1)) + 1 := by omega
        rw [this]; rfl

theorem choose_member : ∀ (ts : List PTy) (k : Nat) (i : Int) (vars : Vars) (h : Mem), choose P vars i (memberCases nm n k ts) h =
    (if i < k then .ok (.next vars, h) else match ts[i.toNat - k]? with
      | none => .ok (.next vars, h)
      | some t => steps P vars (unionOpen nm n t) h)
  | [], k, i, vars, h => by simp [memberCases, choose]
  | f :: fs, k, i, vars, h => by
    rw [memberCases, choose]
    by_cases h0 : i = k
    · subst h0
      rw [if_pos rfl, if_neg (by omega)]
      simp
    · rw [if_neg h0, choose_member fs (k + 1)]
      by_cases h1 : i < k
      · rw [if_pos (by omega), if_pos h1]
      · rw [if_neg (by omega), if_neg h1]
        have : i.toNat - k = (i.toNat - (k + 1)) + 1 := by omega
        rw [this]; rfl

/-- What comes of a `switch` that is followed by a panic. -/
def thenPanic (x : Except Stop (Spec.GoT.Flow × Mem)) : Except Stop (Spec.GoT.Flow × Mem) :=
  match x with
  | .error e => .error e
  | .ok (.next _, _) => .error .panic
  | .ok (.done g, h') => .ok (.done g, h')

/-- A `switch` over `i` that is followed by a panic. -/
theorem steps_switch {vars : Vars} {i : Int} {cases : List (Nat × List Spec.GoT.St)} {text : Str} {h : Mem} (hi : vars.lookup "i".toList = some (.int i)) :
    steps P vars [.switch xI cases, .panic text] h = thenPanic (choose P vars i cases h) := by
  have hs : step P vars (.switch xI cases) h = choose P vars i cases h := by
    rw [step, value, xI, opd, hi]; rfl
  rw [steps, hs]
  cases choose P vars i cases h with
  | error e => rfl
  | ok x =>
    obtain ⟨f, h'⟩ := x
    cases f with
    | done g => rfl
    | next vars' => simp only [Bind.bind, Except.bind]; rw [steps, step]; rfl

/-- The same for the methods that return a target. -/
def Gives (nm : Namer) (n : NS) (t0 : PTy) (x : Except Stop (Option Gv × Mem)) : Except Err MState → Prop
  | .ok (s, h) => ∃ g, x = .ok (some g, h) ∧ Points nm n t0 g s
  | .error e => e = .panic ∧ x = .error .panic

theorem Opened.gives {x : Except Stop (Spec.GoT.Flow × Mem)} {y : Except Err MState} (ho : Opened nm n t0 x y) : Gives nm n t0 (finish x) y := by
  cases y with
  | error e => obtain ⟨h1, h2⟩ := ho; subst h2; exact ⟨h1, rfl⟩
  | ok s =>
    obtain ⟨s, h⟩ := s
    obtain ⟨g, h1, h2⟩ := ho
    subst h1
    exact ⟨g, rfl, h2⟩

/-- After a `switch` that opens nothing comes a panic. -/
theorem Opened.switch {x : Except Stop (Spec.GoT.Flow × Mem)} {y : Except Err MState} (ho : Opened nm n t0 x y) :
    Opened nm n t0 (thenPanic x) y := by
  cases y with
  | error e => obtain ⟨h1, h2⟩ := ho; subst h2; exact ⟨h1, rfl⟩
  | ok s =>
    obtain ⟨s, h⟩ := s
    obtain ⟨g, h1, h2⟩ := ho
    subst h1
    exact ⟨g, rfl, h2⟩

theorem run_recordGet {q : QName} {d : PDef} {fs : List PField} {doc : Str} (hc : CarriesAll P nm n t0) (hw : Within n t0 (.ref q)) (hd : n.find q = some d)
    (hk : d.kind = .record fs doc) (hin : ∀ f ∈ fs, Within n t0 f.ty) (p : Place) (i : Int) (h : Mem) :
    Gives nm n t0 ((recordGet nm n (d.goName nm) fs).run P (.ptr (.named (d.goName nm)) p) [.int i] h)
      (memGet n.env (.record (fs.map PField.erase) p, h) i) := by
  rw [run_eq]
  refine Opened.gives ?_
  show Opened nm n t0 (steps P [("r".toList, .ptr (.named (d.goName nm)) p), ("i".toList, .int i)]
    [.switch xI (recordCases nm n 0 fs), .panic "Unknown field index".toList] h) _
  rw [steps_switch (by rw [look_skip (by decide), look_self]), choose_record]
  simp only [memGet]
  by_cases h0 : i < 0
  · have h0' : i < ((0 : Nat) : Int) := h0
    rw [if_pos h0', if_pos h0]; exact ⟨rfl, rfl⟩
  · have h0' : ¬ i < ((0 : Nat) : Int) := h0
    rw [if_neg h0', if_neg h0]
    simp only [Nat.sub_zero, List.getElem?_map]
    cases hf : fs[i.toNat]? with
    | none => exact ⟨rfl, rfl⟩
    | some f =>
      have hfw := hin f (List.mem_of_getElem? hf)
      have hs : (PTy.ref q).struct nm n = some ⟨fs.map fun f => (fieldGoName nm f.name, goTypeOf nm n f.ty), false⟩ := by
        simp only [PTy.struct, hd, hk]
      obtain ⟨hs1, hs2, _⟩ := (hc _ hw).struct _ hs
      rw [goName_ref hd] at hs1
      refine Opened.switch (recordOpen_opens (hc _ hfw) hfw fun h => ?_)
      refine opd_field look_self hs1 ?_ h
      have := fieldAt_get (k := 0) (i := i.toNat) (F := fieldGoName nm f.name) (ty := goTypeOf nm n f.ty) hs2 (by rw [List.getElem?_map, hf]; rfl)
      rwa [Nat.zero_add] at this

theorem run_unionGet {name : Str} {ts : List PTy} {d : List Json} (hc : CarriesAll P nm n t0) (hw : Within n t0 (.union name ts d))
    (hin : ∀ t ∈ ts, Within n t0 t) (p : Place) (i : Int) (h : Mem) :
    Gives nm n t0 ((unionGet nm n ((PTy.union name ts d).goName nm n) ts).run P (.ptr (.named ((PTy.union name ts d).goName nm n)) p) [.int i] h)
      (memGet n.env (.union (PTy.erases ts) p, h) i) := by
  rw [run_eq]
  refine Opened.gives ?_
  show Opened nm n t0 (steps P [("r".toList, .ptr (.named ((PTy.union name ts d).goName nm n)) p), ("i".toList, .int i)]
    [.switch xI (memberCases nm n 0 ts), .panic "Unknown field index".toList] h) _
  rw [steps_switch (by rw [look_skip (by decide), look_self]), choose_member]
  simp only [memGet]
  by_cases h0 : i < 0
  · have h0' : i < ((0 : Nat) : Int) := h0
    rw [if_pos h0', if_pos h0]; exact ⟨rfl, rfl⟩
  · have h0' : ¬ i < ((0 : Nat) : Int) := h0
    rw [if_neg h0', if_neg h0]
    simp only [Nat.sub_zero, erases_get]
    cases hf : ts[i.toNat]? with
    | none => exact ⟨rfl, rfl⟩
    | some f =>
      have hfw := hin f (List.mem_of_getElem? hf)
      obtain ⟨hs1, hs2, _⟩ := (hc _ hw).struct _ rfl
      refine Opened.switch (unionOpen_opens (hc _ hfw) hfw fun h => ?_)
      refine opd_field look_self hs1 ?_ h
      have := fieldAt_get (k := 0) (i := i.toNat) (F := f.goName nm n) (ty := goTypeOf nm n f) hs2 (by rw [List.getElem?_map, hf]; rfl)
      rwa [Nat.zero_add] at this
end
end Verif
