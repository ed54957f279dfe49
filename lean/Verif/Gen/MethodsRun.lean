import Verif.Gen.Methods
import Verif.Gen.MemBase
import Verif.VM.Match
import Verif.Parser.Resolve
import Verif.Gen.CodeSer
/-
What the methods of generated targets do: the same as the operations of Gen/Memory, whatever memory holds.
-/
set_option linter.unusedSimpArgs false
namespace Verif
open Spec.Go Spec.GoT

/-! ### Types -/

theorem any_null_erase (ts : List PTy) : ts.any nullTy = (PTy.erases ts).any Ty.isNull := by
  induction ts with
  | nil => rfl
  | cons t ts ih => rw [List.any_cons, ih, ← nullTy_erase]; rfl

theorem nullable_erase (t : PTy) : t.nullable = t.erase.nullable := by
  cases t with
  | prim p d => cases p <;> rfl
  | union name ts d => exact any_null_erase ts
  | _ => rfl

theorem erases_length (ts : List PTy) : (PTy.erases ts).length = ts.length := by
  induction ts with
  | nil => rfl
  | cons t ts ih => simp [PTy.erases, ih]

theorem Mem.write_write {h : Mem} {p : Place} {x y : Var} : (h.write p x).write p y = h.write p y := by
  cases ho : h[p.id]? with
  | none => have : h.write p x = h := by simp [Mem.write, ho]
            rw [this]
  | some o => cases o with
    | var v =>
      rw [Mem.write_eq ho, Mem.write_eq (o := v.put p.path x) (by
        rw [List.getElem?_set_self (List.getElem?_eq_some_iff.mp ho).1]), Mem.write_eq ho, Var.put_put, List.set_set]
    | _ => have : h.write p x = h := by simp [Mem.write, ho]
           rw [this]

/-! ### Targets -/

section
variable (P : Pack) (nm : Namer) (n : NS) (t0 : PTy)

/-- A target in Go, and the same as Gen/Memory has it. -/
inductive Points : Gv → MTgt → Prop
  | null {p} : Points .nullVal (.leaf .null p)
  | prim {ty ty' l p} : foreignLeaf ty = some l → Points (.lit ty (.ptr ty' p)) (.leaf l p)
  | array {t d p} : Within n t0 (.array t d) →
      Points (.lit (.named ((PTy.array t d).holder nm n)) (.ptr (.slice (goTypeOf nm n t)) p)) (.array t.erase p)
  | map {t d p w} : Within n t0 (.map t d) →
      Points (.keyed (.named ((PTy.map t d).holder nm n)) (.ptr (.dict (goTypeOf nm n t)) p) w) (.map t.erase p w)
  | union {name ts d g p} : Within n t0 (.union name ts d) → inner g = .ptr (.named ((PTy.union name ts d).holder nm n)) p →
      foreign g = none → Points g (.union (PTy.erases ts) p)
  | record {q d fs doc g p} : Within n t0 (.ref q) → n.find q = some d → d.kind = .record fs doc →
      inner g = .ptr (.named (d.goName nm)) p → foreign g = none → Points g (.record (fs.map PField.erase) p)
  | enum {q d ss doc dv p} : Within n t0 (.ref q) → n.find q = some d → d.kind = .enum ss doc dv →
      Points (.lit (.named (wrapperName (d.goName nm))) (.ptr (.named (d.goName nm)) p)) (.leaf .enum p)
  | fixed {q d k p} : Within n t0 (.ref q) → n.find q = some d → d.kind = .fixed k →
      Points (.lit (.named (wrapperName (d.goName nm))) (.ptr (.named (d.goName nm)) p)) (.leaf (.fixed k.toNat) p)

/-- The package holds what is generated for all types that values of `t0` are made of. -/
def CarriesAll : Prop := ∀ u, Within n t0 u → Carries P nm n u

end

section
variable {P : Pack} {nm : Namer} {n : NS} {t0 : PTy}

/-- What a method that returns a target has to do. -/
def Opened (nm : Namer) (n : NS) (t0 : PTy) (x : Except Stop (Spec.GoT.Flow × Mem)) : Except Err MState → Prop
  | .ok (s, h) => ∃ g, x = .ok (.done (some g), h) ∧ Points nm n t0 g s
  | .error e => e = .panic ∧ x = .error .panic

theorem goName_ref {q : QName} {d : PDef} (h : n.find q = some d) : (PTy.ref q).goName nm n = d.goName nm := by
  simp only [PTy.goName, h]

/-- A type with a wrapper: the target is the wrapper. -/
theorem target_wrapped (hh : Carries P nm n t) (hw : Within n t0 t) {W : GoTy} (hW : t.wrapper nm n = some W) (hm : t.isMap = false) (p : Place) (h : Mem) :
    ∃ s, memTarget n.env t.erase p h = .ok (s, h) ∧ Points nm n t0 (.lit W (.ptr (goTypeOf nm n t) p)) s := by
  cases t with
  | prim a d => cases a <;> cases hW <;> exact ⟨_, rfl, .prim rfl⟩
  | array t d => cases hW; exact ⟨_, rfl, .array hw⟩
  | map t d => cases hm
  | union name ts d =>
    simp only [PTy.wrapper] at hW
    by_cases hn : ts.any nullTy = true
    · rw [if_pos hn] at hW; cases hW
    · rw [if_neg hn] at hW
      cases hW
      refine ⟨.union (PTy.erases ts) p, ?_, .union hw ?_ rfl⟩
      · have hn' : ¬ (Ty.union (PTy.erases ts)).nullable = true := by
          intro h; exact hn ((any_null_erase ts).trans h)
        simp only [PTy.erase, memTarget]
        rw [if_neg hn']
      · simp only [goTypeOf]
        rw [if_neg hn]; rfl
  | ref q =>
    obtain ⟨d, hd⟩ := hh.resolved q rfl
    have hf : n.env.find q = some d.erase := by rw [env_find, hd]; rfl
    simp only [PTy.wrapper, hd] at hW
    cases hk : d.kind with
    | record fs doc =>
      rw [hk] at hW
      cases hW
      refine ⟨.record (fs.map PField.erase) p, ?_, .record hw hd hk ?_ rfl⟩
      · simp only [PTy.erase, memTarget, hf, PDef.erase, hk]
      · simp only [goTypeOf, goName_ref hd]; rfl
    | enum ss doc dv =>
      rw [hk] at hW
      cases hW
      refine ⟨.leaf .enum p, ?_, ?_⟩
      · simp only [PTy.erase, memTarget, hf, PDef.erase, hk]
      · simp only [goTypeOf, goName_ref hd]; exact .enum hw hd hk
    | fixed k =>
      rw [hk] at hW
      cases hW
      refine ⟨.leaf (.fixed k.toNat) p, ?_, ?_⟩
      · simp only [PTy.erase, memTarget, hf, PDef.erase, hk]
      · simp only [goTypeOf, goName_ref hd]; exact .fixed hw hd hk

/-- A map: the target is a new wrapper. -/
theorem target_map (hw : Within n t0 t) {W : GoTy} (hW : t.wrapper nm n = some W) (hm : t.isMap = true) (p : Place) (h : Mem) :
    ∃ s, memTarget n.env t.erase p h = .ok (s, h ++ [.wrapper none .nil]) ∧ Points nm n t0 (.keyed W (.ptr (goTypeOf nm n t) p) h.length) s := by
  cases t with
  | map t d => cases hW; exact ⟨_, rfl, .map hw⟩
  | _ => cases hm

/-- A type without a wrapper: the target is what the variable holds. -/
theorem target_plain (hh : Carries P nm n t) (hw : Within n t0 t) (hW : t.wrapper nm n = none) (p : Place) (h : Mem) :
    match memTarget n.env t.erase p h with
    | .ok (s, h') => ∃ g, result h (.loc (.at p (goTypeOf nm n t))) = .ok (g, h') ∧ Points nm n t0 g s
    | .error e => e = .panic ∧ result h (.loc (.at p (goTypeOf nm n t))) = .error .panic := by
  cases t with
  | prim a d =>
    cases a <;> first | cases hW | skip
    exact ⟨.nullVal, by simp [result, goTypeOf, primType, nullPtr], .null⟩
  | array t d => cases hW
  | map t d => cases hW
  | union name ts d =>
    simp only [PTy.wrapper] at hW
    by_cases hn : ts.any nullTy = true
    · have hn' : (Ty.union (PTy.erases ts)).nullable = true := (any_null_erase ts).symm.trans hn
      simp only [PTy.erase, memTarget, goTypeOf]
      rw [if_pos hn', if_pos hn]
      have hne : GoTy.pointer (.named ((PTy.union name ts d).goName nm n)) ≠ nullPtr := by
        unfold nullPtr; intro h; injection h with h; cases h
      simp only [result]
      rw [if_neg hne]
      cases hr : h.read p with
      | none => exact ⟨rfl, rfl⟩
      | some v => cases v with
        | ptr a => exact ⟨.ptr (.named ((PTy.union name ts d).goName nm n)) ⟨a, []⟩, rfl, .union hw rfl rfl⟩
        | _ => exact ⟨rfl, rfl⟩
    · rw [if_neg hn] at hW; cases hW
  | ref q =>
    obtain ⟨d, hd⟩ := hh.resolved q rfl
    simp only [PTy.wrapper, hd] at hW
    cases hk : d.kind <;> rw [hk] at hW <;> cases hW

/-- What a constructor makes. -/
theorem ctor_value (hh : Carries P nm n t) {c : Spec.GoT.Ex} (hc : t.ctor nm n = some c) (vars : Vars) (h : Mem) :
    value P vars c h = .ok (.data (goTypeOf nm n t) (memNew n.env t.erase h).1, (memNew n.env t.erase h).2) := by
  cases t with
  | prim a d => cases hc
  | array t d => cases hc; rfl
  | map t d => cases hc; rfl
  | union name ts d =>
    have := hh.ctor _ rfl
    cases hc
    simp only [value, opd, this, Bind.bind, Except.bind, load, Pure.pure, Except.pure]
  | ref q =>
    obtain ⟨d, hd⟩ := hh.resolved q rfl
    have hc' := hc
    simp only [PTy.ctor, hd] at hc'
    cases hk : d.kind <;> rw [hk] at hc' <;> cases hc'
    have := hh.ctor _ hc
    simp only [value, opd, this, Bind.bind, Except.bind, load, Pure.pure, Except.pure]

/-- Nothing to construct. -/
theorem no_ctor (hh : Carries P nm n t) (hc : t.ctor nm n = none) (h : Mem) :
    zero (goTypeOf nm n t) = .data (goTypeOf nm n t) (memNew n.env t.erase h).1 ∧ (memNew n.env t.erase h).2 = h := by
  cases t with
  | prim a d => cases a <;> exact ⟨by simp [zero, goTypeOf, primType, nullPtr, PTy.erase, Prim.ty, memNew], rfl⟩
  | array t d => cases hc
  | map t d => cases hc
  | union name ts d => cases hc
  | ref q =>
    obtain ⟨d, hd⟩ := hh.resolved q rfl
    have hf : n.env.find q = some d.erase := by rw [env_find, hd]; rfl
    have hne : goTypeOf nm n (.ref q) ≠ nullPtr := by simp [goTypeOf, nullPtr]
    simp only [PTy.ctor, hd] at hc
    cases hk : d.kind with
    | record fs doc => rw [hk] at hc; cases hc
    | enum ss doc dv =>
      simp only [zero, PTy.erase, memNew, hf, PDef.erase, hk]
      rw [if_neg hne]; exact ⟨rfl, trivial⟩
    | fixed k =>
      simp only [zero, PTy.erase, memNew, hf, PDef.erase, hk]
      rw [if_neg hne]; exact ⟨rfl, trivial⟩

/-- Opening a variable: as the constructor says, then the target. -/
theorem memOpen_eq (hh : Carries P nm n t) (p : Place) (h : Mem) : memOpen n.env t.erase p h = memTarget n.env t.erase p
    (match t.ctor nm n with
      | none => h
      | some _ => (memNew n.env t.erase h).2.write p (memNew n.env t.erase h).1) := by
  cases t with
  | prim a d =>
    cases a <;> first | rfl | skip
    simp only [PTy.erase, Prim.ty, memOpen, Ty.made, memNew, memTarget, PTy.ctor, if_pos, Mem.write_write]
  | array t d => rfl
  | map t d => rfl
  | union name ts d => rfl
  | ref q =>
    obtain ⟨d, hd⟩ := hh.resolved q rfl
    have hf : n.env.find q = some d.erase := by rw [env_find, hd]; rfl
    cases hk : d.kind with
    | record fs doc =>
      have hm : (Ty.ref q).made n.env = true := by simp only [Ty.made, hf, PDef.erase, hk]
      simp only [PTy.erase, memOpen, hm, if_pos, PTy.ctor, hd, hk]
    | enum ss doc dv =>
      have hm : (Ty.ref q).made n.env = false := by simp only [Ty.made, hf, PDef.erase, hk]
      simp only [PTy.erase, memOpen, hm, PTy.ctor, hd, hk]; rfl
    | fixed k =>
      have hm : (Ty.ref q).made n.env = false := by simp only [Ty.made, hf, PDef.erase, hk]
      simp only [PTy.erase, memOpen, hm, PTy.ctor, hd, hk]; rfl
end
end Verif
