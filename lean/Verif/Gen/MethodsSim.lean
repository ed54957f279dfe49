import Verif.Gen.MethodsLib
/-
The targets of a generated package, used by `vm.Eval`, do what those of Gen/Memory do.
-/
set_option linter.unusedSimpArgs false
namespace Verif
open Spec.GoT
open Spec.Go (goTypeOf nullTy GoTy Within)

section
variable {P : Pack} {nm : Namer} {n : NS} {t0 : PTy} {t : PTy}

theorem Spec.Go.Within.trans {a b c : PTy} (h : Within n a b) : Within n b c → Within n a c := by
  intro h'
  induction h with
  | self t => exact h'
  | item _ ih => exact .item (ih h')
  | value _ ih => exact .value (ih h')
  | member hm _ ih => exact .member hm (ih h')
  | field h1 h2 h3 _ ih => exact .field h1 h2 h3 (ih h')

/-- A target in Go with memory, and the same as Gen/Memory has it. -/
def SameTarget (nm : Namer) (n : NS) (t0 : PTy) (a : Gv × Mem) (b : MState) : Prop := Points nm n t0 a.1 b.1 ∧ a.2 = b.2

theorem invoke_of {g : Gv} {T : Str} {s : String} {m : Method} (hT : typeName (inner g) = some T) (hm : P.methods T s.toList = some m)
    (args : List Gv) (h : Mem) : P.invoke s args g h = (match m.run P (inner g) args h with
      | .ok x => .ok x
      | .error .panic => .error .panic
      | .error .stuck => .error .unknownInstr) := by
  unfold Pack.invoke
  simp only [hT, hm]
  cases m.run P (inner g) args h with
  | ok x => rfl
  | error e => cases e <;> rfl

theorem void_did {g : Gv} {T : Str} {s : String} {m : Method} {args : List Gv} {h : Mem} {y : Except Err MState} {tg : MTgt}
    (hT : typeName (inner g) = some T) (hm : P.methods T s.toList = some m) (hp : Points nm n t0 g tg) (hd : Did tg (m.run P (inner g) args h) y) :
    SameEnd (SameTarget nm n t0) (P.void s args g h) y := by
  unfold Pack.void
  rw [invoke_of hT hm]
  cases y with
  | error e => obtain ⟨h1, h2⟩ := hd; rw [h2, h1]; rfl
  | ok y =>
    obtain ⟨s', h'⟩ := y
    obtain ⟨h1, o, h2⟩ := hd
    rw [h2, h1]
    exact ⟨hp, rfl⟩

theorem opens_gives {g : Gv} {T : Str} {s : String} {m : Method} {args : List Gv} {h : Mem} {y : Except Err MState}
    (hT : typeName (inner g) = some T) (hm : P.methods T s.toList = some m) (hd : Gives nm n t0 (m.run P (inner g) args h) y) :
    SameEnd (SameTarget nm n t0) (P.opens s args g h) y := by
  unfold Pack.opens
  rw [invoke_of hT hm]
  cases y with
  | error e => obtain ⟨h1, h2⟩ := hd; rw [h2, h1]; rfl
  | ok y =>
    obtain ⟨s', h'⟩ := y
    obtain ⟨g', h1, h2⟩ := hd
    rw [h1]
    exact ⟨h2, rfl⟩

/-- A method that only panics. -/
theorem void_stub {g : Gv} {T : Str} {s : String} {m : Method} {text : Str} (hT : typeName (inner g) = some T) (hm : P.methods T s.toList = some m)
    (hb : m.body = [.panic text]) (args : List Gv) (h : Mem) : P.void s args g h = .error .panic := by
  unfold Pack.void
  rw [invoke_of hT hm, run_panics hb]

theorem opens_stub {g : Gv} {T : Str} {s : String} {m : Method} {text : Str} (hT : typeName (inner g) = some T) (hm : P.methods T s.toList = some m)
    (hb : m.body = [.panic text]) (args : List Gv) (h : Mem) : P.opens s args g h = .error .panic := by
  unfold Pack.opens
  rw [invoke_of hT hm, run_panics hb]

theorem void_empty {g : Gv} {T : Str} {s : String} {m : Method} (hT : typeName (inner g) = some T) (hm : P.methods T s.toList = some m)
    (hb : m.body = []) (args : List Gv) (h : Mem) : P.void s args g h = .ok (g, h) := by
  unfold Pack.void
  rw [invoke_of hT hm, run_empty hb]

/-- A setter of a wrapper that panics in Gen/Target. -/
theorem memSetLeaf_panics {set : Tgt → Except Err Tgt} {l : Leaf} (hs : ∀ o, set (.leaf l o) = .error .panic) (p : Place) (h : Mem) :
    memSetLeaf set l p h = .error .panic := by
  unfold memSetLeaf
  cases h.read p with
  | none => rfl
  | some v => simp only [hs]

theorem pack_does_own {g : Gv} {s : String} {args : List Gv} {h : Mem} (hf : foreign g = none) : P.does s args (g, h) = P.void s args g h := by
  unfold Pack.does; simp only [hf]

theorem pack_gets_own {g : Gv} {s : String} {args : List Gv} {h : Mem} (hf : foreign g = none) : P.gets s args (g, h) = P.opens s args g h := by
  unfold Pack.gets; simp only [hf]

/-- A method of the types that do not depend on the schema. -/
theorem does_lib {g : Gv} {x : Option (Leaf × Place)} {s : String} {m : Method} (hf : foreign g = some x) (k : Nat)
    (hm : (libMethods (x.map (·.1)))[k]? = some m) (hN : m.name = s.toList) (args : List Gv) (h : Mem) :
    P.does s args (g, h) = (match m.run P g args h with
      | .ok (_, h') => .ok (g, h')
      | .error .panic => .error .panic
      | .error .stuck => .error .unknownInstr) := by
  unfold Pack.does
  simp only [hf, lib_of k hm hN]
  cases m.run P g args h with
  | ok x => rfl
  | error e => cases e <;> rfl

theorem does_lib_panics {g : Gv} {x : Option (Leaf × Place)} {s : String} {m : Method} {t : Str} (hf : foreign g = some x) (k : Nat)
    (hm : (libMethods (x.map (·.1)))[k]? = some m) (hN : m.name = s.toList) (hb : m.body = [.panic t]) (args : List Gv) (h : Mem) :
    P.does s args (g, h) = .error .panic := by
  rw [does_lib hf k hm hN, run_panics hb]

theorem gets_lib_panics {g : Gv} {x : Option (Leaf × Place)} {s : String} {m : Method} {t : Str} (hf : foreign g = some x) (k : Nat)
    (hm : (libMethods (x.map (·.1)))[k]? = some m) (hN : m.name = s.toList) (hb : m.body = [.panic t]) (args : List Gv) (h : Mem) :
    P.gets s args (g, h) = .error .panic := by
  unfold Pack.gets
  simp only [hf, lib_of k hm hN, run_panics hb]

theorem foreign_lit {ty ty' : GoTy} {l : Leaf} {p : Place} (hl : foreignLeaf ty = some l) : foreign (.lit ty (.ptr ty' p)) = some (some (l, p)) := by
  simp only [foreign, hl, Option.map_some]

theorem does_null {s : String} (hs : LibPanics s) (args : List Gv) (h : Mem) : P.does s args (.nullVal, h) = .error .panic := by
  obtain ⟨k, m, h1, h2, t, h3⟩ := hs none (fun _ h => by cases h)
  exact does_lib_panics (x := none) rfl k h1 h2 h3 args h

theorem gets_null {s : String} (hs : LibPanics s) (args : List Gv) (h : Mem) : P.gets s args (.nullVal, h) = .error .panic := by
  obtain ⟨k, m, h1, h2, t, h3⟩ := hs none (fun _ h => by cases h)
  exact gets_lib_panics (x := none) rfl k h1 h2 h3 args h

theorem does_leaf {s : String} (hs : LibPanics s) {ty ty' : GoTy} {l : Leaf} {p : Place} (hl : foreignLeaf ty = some l) (args : List Gv) (h : Mem) :
    P.does s args (.lit ty (.ptr ty' p), h) = .error .panic := by
  obtain ⟨k, m, h1, h2, t, h3⟩ := hs (some (ty, l)) (fun _ h => by cases h; exact hl)
  exact does_lib_panics (foreign_lit hl) k h1 h2 h3 args h

theorem gets_leaf {s : String} (hs : LibPanics s) {ty ty' : GoTy} {l : Leaf} {p : Place} (hl : foreignLeaf ty = some l) (args : List Gv) (h : Mem) :
    P.gets s args (.lit ty (.ptr ty' p), h) = .error .panic := by
  obtain ⟨k, m, h1, h2, t, h3⟩ := hs (some (ty, l)) (fun _ h => by cases h; exact hl)
  exact gets_lib_panics (foreign_lit hl) k h1 h2 h3 args h

/-- `Finalize` of these types does nothing. -/
theorem finalize_null (h : Mem) : P.does "Finalize" [] (.nullVal, h) = .ok (.nullVal, h) := by
  obtain ⟨k, m, h1, h2, h3⟩ := lib_finalize none (fun _ h => by cases h)
  rw [does_lib (x := none) rfl k h1 h2, run_empty h3]

theorem finalize_leaf {ty ty' : GoTy} {l : Leaf} {p : Place} (hl : foreignLeaf ty = some l) (h : Mem) :
    P.does "Finalize" [] (.lit ty (.ptr ty' p), h) = .ok (.lit ty (.ptr ty' p), h) := by
  obtain ⟨k, m, h1, h2, h3⟩ := lib_finalize (some (ty, l)) (fun _ h => by cases h; exact hl)
  rw [does_lib (foreign_lit hl) k h1 h2, run_empty h3]

/-- A setter of the wrappers. -/
theorem does_sets {s : String} {arg : Gv} {set : Tgt → Except Err Tgt} (hs : LibSets P s arg set) {ty ty' : GoTy} {l : Leaf} {p : Place}
    (hl : foreignLeaf ty = some l) (hp : Points nm n t0 (.lit ty (.ptr ty' p)) (.leaf l p)) (h : Mem) :
    SameEnd (SameTarget nm n t0) (P.does s [arg] (.lit ty (.ptr ty' p), h)) (memSetLeaf set l p h) := by
  obtain ⟨k, m, h1, h2, h3⟩ := hs ty l hl
  rcases h3 with ⟨⟨t, h3⟩, h4⟩ | h3
  · rw [does_lib_panics (foreign_lit hl) k h1 h2 h3, memSetLeaf_panics h4]; rfl
  · rw [does_lib (foreign_lit hl) k h1 h2]
    have hd := h3 ty' p h
    revert hd
    cases memSetLeaf set l p h with
    | error e => rintro ⟨rfl, hd⟩; rw [hd]; rfl
    | ok y =>
      obtain ⟨s', h'⟩ := y
      rintro ⟨rfl, o, hd⟩
      rw [hd]
      exact ⟨hp, rfl⟩

/-- Memory, without the target. -/
def memOnly : Except Err MState → Except Err Mem
  | .error e => .error e
  | .ok (_, h) => .ok h

/-- `SetDefault` of the package's records does what Gen/Memory says, and no union is taken for a record. -/
structure Defaulting (dflt : Str → Option (Place → Int → Mem → Except Err Mem)) (nm : Namer) (n : NS) (t0 : PTy) (dv : Field → Val) : Prop where
  record : ∀ q d fs doc, Within n t0 (.ref q) → n.find q = some d → d.kind = .record fs doc → ∃ f, dflt (d.goName nm) = some f ∧
    ∀ p i h, f p i h = memOnly (memSetDefault n.env dv (.record (fs.map PField.erase) p, h) i)
  union : ∀ name ts d, Within n t0 (.union name ts d) → dflt ((PTy.union name ts d).goName nm n) = none

/-- What there is to know about a target, by what it is for. -/
inductive Kind (P : Pack) (nm : Namer) (n : NS) (t0 : PTy) (g : Gv) : MTgt → Prop
  | null {p} : g = .nullVal → Kind P nm n t0 g (.leaf .null p)
  | prim {l p ty ty'} : foreignLeaf ty = some l → g = .lit ty (.ptr ty' p) → Kind P nm n t0 g (.leaf l p)
  | array {t d p} : foreign g = none → Within n t0 (.array t d) →
      inner g = .lit (.named ((PTy.array t d).holder nm n)) (.ptr (.slice (goTypeOf nm n t)) p) → Kind P nm n t0 g (.array t.erase p)
  | map {t d p w} : foreign g = none → Within n t0 (.map t d) →
      inner g = .keyed (.named ((PTy.map t d).holder nm n)) (.ptr (.dict (goTypeOf nm n t)) p) w → Kind P nm n t0 g (.map t.erase p w)
  | union {name ts d p} : foreign g = none → Within n t0 (.union name ts d) → inner g = .ptr (.named ((PTy.union name ts d).goName nm n)) p →
      Kind P nm n t0 g (.union (PTy.erases ts) p)
  | record {q d fs doc p} : foreign g = none → Within n t0 (.ref q) → n.find q = some d → d.kind = .record fs doc →
      inner g = .ptr (.named (d.goName nm)) p → Kind P nm n t0 g (.record (fs.map PField.erase) p)
  | enum {q d ss doc dv p} : foreign g = none → Within n t0 (.ref q) → n.find q = some d → d.kind = .enum ss doc dv →
      inner g = .lit (.named (wrapperName (d.goName nm))) (.ptr (.named (d.goName nm)) p) → Kind P nm n t0 g (.leaf .enum p)
  | fixed {q d k p} : foreign g = none → Within n t0 (.ref q) → n.find q = some d → d.kind = .fixed k →
      inner g = .lit (.named (wrapperName (d.goName nm))) (.ptr (.named (d.goName nm)) p) → Kind P nm n t0 g (.leaf (.fixed k.toNat) p)

theorem Points.kind (hc : CarriesAll P nm n t0) {g : Gv} {tg : MTgt} (hp : Points nm n t0 g tg) : Kind P nm n t0 g tg := by
  have hlit : ∀ {W : Str} {x : Gv}, inner (.lit (.named W) x) = .lit (.named W) x := by
    intro W x
    simp only [inner]; rw [if_neg (by unfold recordTy; intro h; cases h)]
  cases hp with
  | null => exact .null rfl
  | prim h => exact .prim h rfl
  | array hw =>
    have ho := (hc _ hw).own _ rfl (fun p d h => by cases h)
    refine .array ?_ hw hlit
    have : foreignLeaf (.named ((PTy.array _ _).holder nm n)) = none := ho
    simp only [foreign, this, Option.map_none]
  | map hw => exact .map rfl hw rfl
  | union hw hi hf => exact .union hf hw hi
  | record hw hd hk hi hf => exact .record hf hw hd hk hi
  | @enum q d ss doc dv p hw hd hk =>
    have ho := (hc _ hw).own (wrapperName (PDef.goName nm d)) (by simp only [PTy.wrapper, hd, hk]) (fun p d h => by cases h)
    exact .enum (by simp only [foreign, ho, Option.map_none]) hw hd hk hlit
  | @fixed q d k p hw hd hk =>
    have ho := (hc _ hw).own (wrapperName (PDef.goName nm d)) (by simp only [PTy.wrapper, hd, hk]) (fun p d h => by cases h)
    exact .fixed (by simp only [foreign, ho, Option.map_none]) hw hd hk hlit

/-! Where the methods are -/

theorem has_array {t : PTy} {d : Json} (hc : Carries P nm n (.array t d)) {m : Method} {N : Str} (k : Nat)
    (hm : (arrayMethodsOf nm n ((PTy.array t d).holder nm n) (.slice (goTypeOf nm n t)) t)[k]? = some m) (hN : m.name = N) :
    P.methods ((PTy.array t d).holder nm n) N = some m := hN ▸ hc.methods m (List.mem_of_getElem? hm)

theorem has_map {t : PTy} {d : Json} (hc : Carries P nm n (.map t d)) {m : Method} {N : Str} (k : Nat)
    (hm : (mapMethodsOf nm n ((PTy.map t d).holder nm n) t)[k]? = some m) (hN : m.name = N) :
    P.methods ((PTy.map t d).holder nm n) N = some m := hN ▸ hc.methods m (List.mem_of_getElem? hm)

theorem has_union {name : Str} {ts : List PTy} {d : List Json} (hc : Carries P nm n (.union name ts d)) {m : Method} {N : Str} (k : Nat)
    (hm : (unionMethodsOf nm n ((PTy.union name ts d).goName nm n) (goTypeOf nm n (.union name ts d)) ts)[k]? = some m) (hN : m.name = N) :
    P.methods ((PTy.union name ts d).goName nm n) N = some m := hN ▸ hc.methods m (List.mem_of_getElem? hm)

theorem has_record {q : QName} {d : PDef} {fs : List PField} {doc : Str} (hc : Carries P nm n (.ref q)) (hd : n.find q = some d)
    (hk : d.kind = .record fs doc) {m : Method} {N : Str} (k : Nat)
    (hm : (recordMethodsOf nm n (d.goName nm) fs)[k]? = some m) (hN : m.name = N) :
    P.methods (d.goName nm) N = some m := by
  have h1 : (PTy.ref q).methods nm n = recordMethodsOf nm n (d.goName nm) fs := by simp only [PTy.methods, hd, hk]
  have h2 : (PTy.ref q).holder nm n = d.goName nm := by simp only [PTy.holder, hd, hk]
  have := hc.methods m (by rw [h1]; exact List.mem_of_getElem? hm)
  rw [h2, hN] at this; exact this

theorem has_enum {q : QName} {d : PDef} {ss : List Str} {doc dv : Str} (hc : Carries P nm n (.ref q)) (hd : n.find q = some d)
    (hk : d.kind = .enum ss doc dv) {m : Method} {N : Str} (k : Nat)
    (hm : (enumMethodsOf (wrapperName (d.goName nm)) (d.goName nm))[k]? = some m) (hN : m.name = N) :
    P.methods (wrapperName (d.goName nm)) N = some m := by
  have h1 : (PTy.ref q).methods nm n = enumMethodsOf (wrapperName (d.goName nm)) (d.goName nm) := by simp only [PTy.methods, hd, hk]
  have h2 : (PTy.ref q).holder nm n = wrapperName (d.goName nm) := by simp only [PTy.holder, hd, hk]
  have := hc.methods m (by rw [h1]; exact List.mem_of_getElem? hm)
  rw [h2, hN] at this; exact this

theorem has_fixed {q : QName} {d : PDef} {k : Int} (hc : Carries P nm n (.ref q)) (hd : n.find q = some d)
    (hk : d.kind = .fixed k) {m : Method} {N : Str} (j : Nat)
    (hm : (fixedMethodsOf (wrapperName (d.goName nm)))[j]? = some m) (hN : m.name = N) :
    P.methods (wrapperName (d.goName nm)) N = some m := by
  have h1 : (PTy.ref q).methods nm n = fixedMethodsOf (wrapperName (d.goName nm)) := by simp only [PTy.methods, hd, hk]
  have h2 : (PTy.ref q).holder nm n = wrapperName (d.goName nm) := by simp only [PTy.holder, hd, hk]
  have := hc.methods m (by rw [h1]; exact List.mem_of_getElem? hm)
  rw [h2, hN] at this; exact this

/-! ### Setters -/

/-- A setter that only wrappers without parts have. -/
theorem sets_same (hc : CarriesAll P nm n t0) {g : Gv} {tg : MTgt} {h : Mem} (hp : Points nm n t0 g tg) (s : String) (arg : Gv)
    (set : Tgt → Except Err Tgt) (hnull : ∀ o, set (.leaf .null o) = .error .panic) (hnp : NullPanics s) (hlib : LibSets P s arg set)
    (harray : ∀ nm n W ty t, ∃ (k : Nat) (m : Method), (arrayMethodsOf nm n W ty t)[k]? = some m ∧ m.name = s.toList ∧ ∃ x, m.body = [.panic x])
    (hmap : ∀ nm n W t, ∃ (k : Nat) (m : Method), (mapMethodsOf nm n W t)[k]? = some m ∧ m.name = s.toList ∧ ∃ x, m.body = [.panic x])
    (hunion : (∀ us p, tg ≠ .union us p) ∨ ∀ nm n W ty ts, ∃ (k : Nat) (m : Method), (unionMethodsOf nm n W ty ts)[k]? = some m ∧ m.name = s.toList ∧ ∃ x, m.body = [.panic x])
    (hrecord : ∀ nm n W fs, ∃ (k : Nat) (m : Method), (recordMethodsOf nm n W fs)[k]? = some m ∧ m.name = s.toList ∧ ∃ x, m.body = [.panic x])
    (henum : ∀ W T, ∃ (k : Nat) (m : Method), (enumMethodsOf W T)[k]? = some m ∧ m.name = s.toList ∧ (((∃ x, m.body = [.panic x]) ∧ ∀ o, set (.leaf .enum o) = .error .panic) ∨
      ∀ p h, Did (.leaf .enum p) (m.run P (.lit (.named W) (.ptr (.named T) p)) [arg] h) (memSetLeaf set .enum p h)))
    (hfixed : ∀ W k, ∃ (j : Nat) (m : Method), (fixedMethodsOf W)[j]? = some m ∧ m.name = s.toList ∧ (((∃ x, m.body = [.panic x]) ∧ ∀ o, set (.leaf (.fixed k) o) = .error .panic) ∨
      ∀ T p h, P.arrays T = some k → Did (.leaf (.fixed k) p) (m.run P (.lit (.named W) (.ptr (.named T) p)) [arg] h) (memSetLeaf set (.fixed k) p h))) :
    SameEnd (SameTarget nm n t0) (P.does s [arg] (g, h)) (memSet set (tg, h)) := by
  cases hp.kind hc with
  | null hg =>
    subst hg
    obtain ⟨k, m, h1, h2, t, h3⟩ := hnp
    rw [does_lib_panics (x := none) rfl k h1 h2 h3]
    simp only [memSet]
    rw [memSetLeaf_panics hnull]; rfl
  | prim hl hg => subst hg; exact does_sets hlib hl hp h
  | array hf hw hi =>
    obtain ⟨_, m, h1, h2, x, h3⟩ := harray nm n _ _ _
    rw [pack_does_own hf, void_stub (by rw [hi]; rfl) (has_array (hc _ hw) _ h1 h2) h3]; rfl
  | map hf hw hi =>
    obtain ⟨_, m, h1, h2, x, h3⟩ := hmap nm n _ _
    rw [pack_does_own hf, void_stub (by rw [hi]; rfl) (has_map (hc _ hw) _ h1 h2) h3]; rfl
  | union hf hw hi =>
    rcases hunion with hne | hunion
    · exact absurd rfl (hne _ _)
    obtain ⟨_, m, h1, h2, x, h3⟩ := hunion nm n _ _ _
    rw [pack_does_own hf, void_stub (by rw [hi]; rfl) (has_union (hc _ hw) _ h1 h2) h3]; rfl
  | record hf hw hd hk hi =>
    obtain ⟨_, m, h1, h2, x, h3⟩ := hrecord nm n _ _
    rw [pack_does_own hf, void_stub (by rw [hi]; rfl) (has_record (hc _ hw) hd hk _ h1 h2) h3]; rfl
  | enum hf hw hd hk hi =>
    obtain ⟨_, m, h1, h2, h3⟩ := henum _ _
    rw [pack_does_own hf]
    rcases h3 with ⟨⟨x, h3⟩, h4⟩ | h3
    · rw [void_stub (by rw [hi]; rfl) (has_enum (hc _ hw) hd hk _ h1 h2) h3]
      simp only [memSet]
      rw [memSetLeaf_panics h4]; rfl
    · exact void_did (by rw [hi]; rfl) (has_enum (hc _ hw) hd hk _ h1 h2) hp (by rw [hi]; exact h3 _ _)
  | fixed hf hw hd hk hi =>
    obtain ⟨_, m, h1, h2, h3⟩ := hfixed _ _
    rw [pack_does_own hf]
    rcases h3 with ⟨⟨x, h3⟩, h4⟩ | h3
    · rw [void_stub (by rw [hi]; rfl) (has_fixed (hc _ hw) hd hk _ h1 h2) h3]
      simp only [memSet]
      rw [memSetLeaf_panics h4]; rfl
    · have ha := (hc _ hw).array _ _ _ rfl hd hk
      refine void_did (by rw [hi]; rfl) (has_fixed (hc _ hw) hd hk _ h1 h2) hp ?_
      rw [hi]
      exact h3 _ _ _ (by simpa only [goName_ref hd] using ha)
end
end Verif
