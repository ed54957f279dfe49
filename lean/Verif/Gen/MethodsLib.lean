import Verif.Gen.MethodsAll
/-
The methods of v10/vm/types and of the wrapper in templates/bytes.go do what Gen/Target says.
-/
set_option linter.unusedSimpArgs false
namespace Verif
open Spec.GoT
open Spec.Go (goTypeOf nullTy GoTy Within)

theorem find_method {m : Method} : ∀ {l : List Method}, (l.map (·.name)).Nodup → m ∈ l → (l.find? fun f => decide (f.name = m.name)) = some m
  | [], _, h => by cases h
  | x :: l, hn, h => by
    rw [List.map_cons, List.nodup_cons] at hn
    rcases List.mem_cons.1 h with rfl | h
    · rw [List.find?_cons_of_pos (by simp)]
    · rw [List.find?_cons_of_neg, find_method hn.2 h]
      have : x.name ≠ m.name := fun e => hn.1 (e ▸ List.mem_map.2 ⟨m, h, rfl⟩)
      simpa using this

theorem lib_nodup (x : Option Leaf) : ((libMethods x).map (·.name)).Nodup := by
  cases x with
  | none => exact (by decide +kernel : (nullValMethods.map (·.name)).Nodup)
  | some l => cases l with
    | bool => exact (by decide +kernel : (booleanMethods.map (·.name)).Nodup)
    | int => exact (by decide +kernel : (intMethods.map (·.name)).Nodup)
    | long => exact (by decide +kernel : (longMethods.map (·.name)).Nodup)
    | float => exact (by decide +kernel : (floatMethods.map (·.name)).Nodup)
    | double => exact (by decide +kernel : (doubleMethods.map (·.name)).Nodup)
    | string => exact (by decide +kernel : (stringMethods.map (·.name)).Nodup)
    | bytes => exact (by decide +kernel : (bytesMethods.map (·.name)).Nodup)
    | _ => exact List.nodup_nil

/-- The wrappers there are. -/
theorem leaf_cases {ty : GoTy} {l : Leaf} (h : foreignLeaf ty = some l) :
    l = .bool ∨ l = .int ∨ l = .long ∨ l = .float ∨ l = .double ∨ l = .string ∨ l = .bytes := by
  unfold foreignLeaf at h
  by_cases h1 : ty = .of "types".toList "Boolean".toList
  · rw [if_pos h1] at h; cases h; simp
  rw [if_neg h1] at h
  by_cases h2 : ty = .of "types".toList "Int".toList
  · rw [if_pos h2] at h; cases h; simp
  rw [if_neg h2] at h
  by_cases h3 : ty = .of "types".toList "Long".toList
  · rw [if_pos h3] at h; cases h; simp
  rw [if_neg h3] at h
  by_cases h4 : ty = .of "types".toList "Float".toList
  · rw [if_pos h4] at h; cases h; simp
  rw [if_neg h4] at h
  by_cases h5 : ty = .of "types".toList "Double".toList
  · rw [if_pos h5] at h; cases h; simp
  rw [if_neg h5] at h
  by_cases h6 : ty = .of "types".toList "String".toList
  · rw [if_pos h6] at h; cases h; simp
  rw [if_neg h6] at h
  by_cases h7 : ty = .named "BytesWrapper".toList
  · rw [if_pos h7] at h; cases h; simp
  rw [if_neg h7] at h
  cases h

section
variable {P : Pack}

theorem lib_of {x : Option (Leaf × Place)} {s : String} {m : Method} (k : Nat) (hm : (libMethods (x.map (·.1)))[k]? = some m) (hN : m.name = s.toList)
    (args : List Gv) (g : Gv) (h : Mem) : P.lib x s args g h = (match m.run P g args h with
      | .ok x => .ok x
      | .error .panic => .error .panic
      | .error .stuck => .error .unknownInstr) := by
  unfold Pack.lib
  rw [← hN, find_method (lib_nodup _) (List.mem_of_getElem? hm)]
  simp only
  cases m.run P g args h with
  | ok x => rfl
  | error e => cases e <;> rfl

/-- `*(b.Target) = e` -/
theorem run_libSet {W W' ty ty' : GoTy} {s : String} {e : Spec.GoT.Ex} {p : Place} {arg g : Gv} {x : Val} {h : Mem} {l : Leaf} {set : Tgt → Except Err Tgt}
    (hv : ∀ h, value P [("b".toList, .lit W (.ptr ty' p)), ("v".toList, arg)] e h = .ok (g, h)) (hg : g.asVar = some (.prim x))
    (hs : ∀ o, set (.leaf l o) = .ok (.leaf l (some x))) :
    Did (.leaf l p) ((libSet W' s ty e).run P (.lit W (.ptr ty' p)) [arg] h) (memSetLeaf set l p h) := by
  rw [run_eq]
  show Did _ (finish (steps P [("b".toList, .lit W (.ptr ty' p)), ("v".toList, arg)]
    [.assign (.star (.par (.sel (.var "b".toList) "Target".toList))) e] h)) _
  have hstar : opd P [("b".toList, .lit W (.ptr ty' p)), ("v".toList, arg)]
      (.star (.par (.sel (.var "b".toList) "Target".toList))) h = (match h.read p with
        | some _ => .ok (.loc (.at p ty'), h)
        | none => .error .panic) := by
    simp only [opd, look_self, Bind.bind, Except.bind, load, select_lit, Pure.pure, Except.pure]
    cases h.read p <;> rfl
  rw [steps_one, step_assign (fun x hx => by cases hx), hstar]
  simp only [memSetLeaf]
  cases h.read p with
  | none => exact ⟨rfl, rfl⟩
  | some u =>
    simp only [hv, store, hg, hs]
    exact ⟨rfl, none, rfl⟩

theorem value_v {b : Gv} {arg : Gv} (h : Mem) : value P [("b".toList, b), ("v".toList, arg)] xV h = .ok (arg, h) := by
  rw [value, xV, opd, look_skip (by decide), look_self]; rfl

theorem value_basic {b : Gv} {arg g : Gv} {ty : GoTy} (hc : convert ty arg = .ok g) (h : Mem) :
    value P [("b".toList, b), ("v".toList, arg)] (.basic ty xV) h = .ok (g, h) := by
  rw [value, opd, xV, opd, look_skip (by decide), look_self]
  simp only [Bind.bind, Except.bind, load, hc, Pure.pure, Except.pure]

/-- What is to be shown of a setter of the wrappers. -/
def LibSets (P : Pack) (s : String) (arg : Gv) (set : Tgt → Except Err Tgt) : Prop :=
  ∀ ty l, foreignLeaf ty = some l → ∃ (k : Nat) (m : Method), (libMethods (some l))[k]? = some m ∧ m.name = s.toList ∧
    (((∃ x, m.body = [.panic x]) ∧ ∀ o, set (.leaf l o) = .error .panic) ∨
      ∀ ty' p h, Did (.leaf l p) (m.run P (.lit ty (.ptr ty' p)) [arg] h) (memSetLeaf set l p h))

/-- The setter panics. -/
macro "lib_panics" k:num : tactic => `(tactic| exact ⟨$k, _, rfl, rfl, .inl ⟨⟨_, rfl⟩, fun _ => rfl⟩⟩)
/-- The setter assigns what it is given. -/
macro "lib_assigns" k:num : tactic => `(tactic| exact ⟨$k, _, rfl, rfl, .inr fun _ _ _ => run_libSet (fun h => value_v h) rfl (fun _ => rfl)⟩)
/-- The setter converts what it is given, and assigns it. -/
macro "lib_converts" k:num : tactic =>
  `(tactic| exact ⟨$k, _, rfl, rfl, .inr fun _ _ _ => run_libSet (fun h => value_basic (by simp [convert, goInt64, goFloat32, goFloat64, goString, goBytes]; rfl) h) rfl (fun _ => rfl)⟩)

theorem lib_setBoolean (v : Bool) : LibSets P "SetBoolean" (.bool v) (fun t => genSetBoolean t v) := by
  intro ty l h
  rcases leaf_cases h with rfl | rfl | rfl | rfl | rfl | rfl | rfl
  · lib_assigns 0
  · lib_panics 0
  · lib_panics 0
  · lib_panics 0
  · lib_panics 0
  · lib_panics 0
  · lib_panics 0

theorem lib_setInt (v : BitVec 32) : LibSets P "SetInt" (.int32 v) (fun t => genSetInt t v) := by
  intro ty l h
  rcases leaf_cases h with rfl | rfl | rfl | rfl | rfl | rfl | rfl
  · lib_panics 1
  · lib_assigns 1
  · lib_converts 1
  · lib_converts 1
  · lib_converts 1
  · lib_panics 1
  · lib_panics 1

theorem lib_setLong (v : BitVec 64) : LibSets P "SetLong" (.int64 v) (fun t => genSetLong t v) := by
  intro ty l h
  rcases leaf_cases h with rfl | rfl | rfl | rfl | rfl | rfl | rfl
  · lib_panics 2
  · lib_panics 2
  · lib_assigns 2
  · lib_converts 2
  · lib_converts 2
  · lib_panics 2
  · lib_panics 2

theorem lib_setFloat (v : BitVec 32) : LibSets P "SetFloat" (.float32 v) (fun t => genSetFloat t v) := by
  intro ty l h
  rcases leaf_cases h with rfl | rfl | rfl | rfl | rfl | rfl | rfl
  · lib_panics 3
  · lib_panics 3
  · lib_panics 3
  · lib_assigns 3
  · lib_converts 3
  · lib_panics 3
  · lib_panics 3

theorem lib_setDouble (v : BitVec 64) : LibSets P "SetDouble" (.float64 v) (fun t => genSetDouble t v) := by
  intro ty l h
  rcases leaf_cases h with rfl | rfl | rfl | rfl | rfl | rfl | rfl
  · lib_panics 4
  · lib_panics 5
  · lib_panics 5
  · lib_panics 5
  · lib_assigns 4
  · lib_panics 5
  · lib_panics 4

theorem lib_setBytes (v : List Byte) : LibSets P "SetBytes" (.bytes v) (fun t => genSetBytes t v) := by
  intro ty l h
  rcases leaf_cases h with rfl | rfl | rfl | rfl | rfl | rfl | rfl
  · lib_panics 5
  · lib_panics 6
  · lib_panics 6
  · lib_panics 6
  · lib_panics 6
  · lib_converts 6
  · lib_assigns 6

theorem lib_setString (v : List Byte) : LibSets P "SetString" (.str v) (fun t => genSetString t v) := by
  intro ty l h
  rcases leaf_cases h with rfl | rfl | rfl | rfl | rfl | rfl | rfl
  · lib_panics 6
  · lib_panics 7
  · lib_panics 7
  · lib_panics 7
  · lib_panics 7
  · lib_assigns 7
  · lib_converts 7

/-- A method of the wrappers and of `*types.NullVal` that panics. -/
def LibPanics (s : String) : Prop :=
  ∀ x : Option (GoTy × Leaf), (∀ y, x = some y → foreignLeaf y.1 = some y.2) →
    ∃ (k : Nat) (m : Method), (libMethods (x.map (·.2)))[k]? = some m ∧ m.name = s.toList ∧ ∃ t, m.body = [.panic t]

macro "lib_all" k:num : tactic => `(tactic| (
  intro x hx
  cases x with
  | none => exact ⟨$k, _, rfl, rfl, _, rfl⟩
  | some y =>
    obtain ⟨ty, l⟩ := y
    rcases leaf_cases (hx _ rfl) with h | h | h | h | h | h | h <;> (simp only at h; subst h; exact ⟨$k, _, rfl, rfl, _, rfl⟩)))

theorem lib_get : LibPanics "Get" := by lib_all 8
theorem lib_setDefault : LibPanics "SetDefault" := by lib_all 9
theorem lib_appendMap : LibPanics "AppendMap" := by lib_all 10
theorem lib_appendArray : LibPanics "AppendArray" := by lib_all 11
theorem lib_nullField : LibPanics "NullField" := by lib_all 12
theorem lib_hintSize : LibPanics "HintSize" := by lib_all 13

/-- The setters of `*types.NullVal`. -/
def NullPanics (s : String) : Prop := ∃ (k : Nat) (m : Method), nullValMethods[k]? = some m ∧ m.name = s.toList ∧ ∃ t, m.body = [.panic t]

theorem lib_finalize (x : Option (GoTy × Leaf)) (hx : ∀ y, x = some y → foreignLeaf y.1 = some y.2) :
    ∃ (k : Nat) (m : Method), (libMethods (x.map (·.2)))[k]? = some m ∧ m.name = "Finalize".toList ∧ m.body = [] := by
  cases x with
  | none => exact ⟨14, _, rfl, rfl, rfl⟩
  | some y =>
    obtain ⟨ty, l⟩ := y
    rcases leaf_cases (hx _ rfl) with h | h | h | h | h | h | h <;> (simp only at h; subst h; exact ⟨14, _, rfl, rfl, rfl⟩)
end
end Verif
