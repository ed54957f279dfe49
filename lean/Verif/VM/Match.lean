import Verif.VM.Eval
/-
Two kinds of targets whose operations go together: the virtual machine does the same with both.
-/
namespace Verif
variable {R T U : Type}

/-- Both fail in the same way, or both end, with targets that go together. -/
def SameEnd (M : T → U → Prop) : Except Err T → Except Err U → Prop
  | .ok t, .ok u => M t u
  | .error e, .error e' => e = e'
  | _, _ => False

/-- All operations go together. -/
structure FieldOps.Matches (fo : FieldOps T) (fu : FieldOps U) (M : T → U → Prop) : Prop where
  setBoolean {t u} (v) : M t u → SameEnd M (fo.setBoolean t v) (fu.setBoolean u v)
  setInt {t u} (v) : M t u → SameEnd M (fo.setInt t v) (fu.setInt u v)
  setLong {t u} (v) : M t u → SameEnd M (fo.setLong t v) (fu.setLong u v)
  setFloat {t u} (v) : M t u → SameEnd M (fo.setFloat t v) (fu.setFloat u v)
  setDouble {t u} (v) : M t u → SameEnd M (fo.setDouble t v) (fu.setDouble u v)
  setBytes {t u} (v) : M t u → SameEnd M (fo.setBytes t v) (fu.setBytes u v)
  setString {t u} (v) : M t u → SameEnd M (fo.setString t v) (fu.setString u v)
  get {t u} (i) : M t u → SameEnd M (fo.get t i) (fu.get u i)
  put {t u s s'} (i) : M t u → M s s' → M (fo.put t i s) (fu.put u i s')
  setDefault {t u} (i) : M t u → SameEnd M (fo.setDefault t i) (fu.setDefault u i)
  appendMap {t u} (k) : M t u → SameEnd M (fo.appendMap t k) (fu.appendMap u k)
  putMap {t u s s'} (k) : M t u → M s s' → M (fo.putMap t k s) (fu.putMap u k s')
  appendArray {t u} : M t u → SameEnd M (fo.appendArray t) (fu.appendArray u)
  putArray {t u s s'} : M t u → M s s' → M (fo.putArray t s) (fu.putArray u s')
  nullField {t u} (i) : M t u → SameEnd M (fo.nullField t i) (fu.nullField u i)
  hintSize {t u} (c) : M t u → SameEnd M (fo.hintSize t c) (fu.hintSize u c)
  finalize {t u} : M t u → SameEnd M (fo.finalize t) (fu.finalize u)

/-- The same for what the virtual machine leaves behind. -/
def FitsOut (M : T → U → Prop) : Out (Ret R T) → Out (Ret R U) → Prop
  | .done a, .done b => a.nil = b.nil ∧ a.pc = b.pc ∧ a.r = b.r ∧ M a.t b.t
  | .err e, .err e' => e = e'
  | .timeout, .timeout => True
  | _, _ => False

section
variable {ro : ReaderOps R} {fo : FieldOps T} {fu : FieldOps U} {p : Program} {M : T → U → Prop}

theorem doSet_fits (hm : fo.Matches fu M) {arg : Int} {fr : Frame} {t : T} {u : U} (h : M t u) : SameEnd M (doSet fo arg fr t) (doSet fu arg fr u) := by
  unfold doSet
  by_cases h0 : arg = opNull
  · rw [if_pos h0, if_pos h0]; exact h
  rw [if_neg h0, if_neg h0]
  by_cases h1 : arg = opBoolean
  · rw [if_pos h1, if_pos h1]; exact hm.setBoolean _ h
  rw [if_neg h1, if_neg h1]
  by_cases h2 : arg = opInt
  · rw [if_pos h2, if_pos h2]; exact hm.setInt _ h
  rw [if_neg h2, if_neg h2]
  by_cases h3 : arg = opLong
  · rw [if_pos h3, if_pos h3]; exact hm.setLong _ h
  rw [if_neg h3, if_neg h3]
  by_cases h4 : arg = opFloat
  · rw [if_pos h4, if_pos h4]; exact hm.setFloat _ h
  rw [if_neg h4, if_neg h4]
  by_cases h5 : arg = opDouble
  · rw [if_pos h5, if_pos h5]; exact hm.setDouble _ h
  rw [if_neg h5, if_neg h5]
  by_cases h6 : arg = opBytes
  · rw [if_pos h6, if_pos h6]; exact hm.setBytes _ h
  rw [if_neg h6, if_neg h6]
  by_cases h7 : arg = opString
  · rw [if_pos h7, if_pos h7]; exact hm.setString _ h
  rw [if_neg h7, if_neg h7]
  exact h

theorem nullIf_fits (hm : fo.Matches fu M) {b : Bool} {i : Int} {t : T} {u : U} (h : M t u) : SameEnd M (nullIf fo b t i) (nullIf fu b u i) := by
  cases b with
  | false => exact h
  | true => exact hm.nullField _ h

theorem evalInner_fits (hm : fo.Matches fu M) : ∀ n pc fr fl (r : R) (t : T) (u : U), M t u →
    FitsOut M (evalInner ro fo p n pc fr fl r t) (evalInner ro fu p n pc fr fl r u) := by
  intro n
  induction n with
  | zero => intro pc fr fl r t u _; simp [evalInner, FitsOut]
  | succ n ih =>
    intro pc fr fl r t u ht
    have one : ∀ {x : Except Err T} {y : Except Err U} {k : T → Out (Ret R T)} {l : U → Out (Ret R U)}, SameEnd M x y →
        (∀ a b, M a b → FitsOut M (k a) (l b)) →
        FitsOut M (match x with | .error e => Out.err e | .ok t' => k t') (match y with | .error e => Out.err e | .ok t' => l t') := by
      intro x y k l h1 h2
      cases x with
      | error e => cases y with
        | error e' => exact h1
        | ok b => exact h1.elim
      | ok a => cases y with
        | error e' => exact h1.elim
        | ok b => exact h2 a b h1
    have run : ∀ {x : Out (Ret R T)} {y : Out (Ret R U)} {k : Ret R T → Out (Ret R T)} {l : Ret R U → Out (Ret R U)}, FitsOut M x y →
        (∀ nil pc r a b, M a b → FitsOut M (k ⟨nil, pc, r, a⟩) (l ⟨nil, pc, r, b⟩)) →
        FitsOut M (match x with | .timeout => Out.timeout | .err e => Out.err e | .done t' => k t')
          (match y with | .timeout => Out.timeout | .err e => Out.err e | .done t' => l t') := by
      intro x y k l h1 h2
      cases x with
      | timeout => cases y with
        | timeout => trivial
        | err e => exact h1.elim
        | done b => exact h1.elim
      | err e => cases y with
        | timeout => exact h1.elim
        | err e => exact h1
        | done b => exact h1.elim
      | done a => cases y with
        | timeout => exact h1.elim
        | err e => exact h1.elim
        | done b =>
          obtain ⟨a1, a2, a3, a4⟩ := a
          obtain ⟨b1, b2, b3, b4⟩ := b
          obtain ⟨e1, e2, e3, e4⟩ := h1
          simp only at e1 e2 e3
          subst e1 e2 e3
          exact h2 _ _ _ _ _ e4
    have stop : ∀ {b pc' r'}, FitsOut M (.done ⟨b, pc', r', t⟩ : Out (Ret R T)) (.done ⟨b, pc', r', u⟩) := ⟨rfl, rfl, rfl, ht⟩
    unfold evalInner
    cases hi : p.instrs[pc]? with
    | none => exact stop
    | some ins =>
      obtain ⟨op, arg⟩ := ins
      cases op with
      | read =>
        simp only
        cases doRead ro arg fr r with
        | error e => rfl
        | ok x => exact ih _ _ _ _ _ _ ht
      | set => exact one (doSet_fits hm ht) fun a b h => ih _ _ _ _ _ _ h
      | setDefault => exact one (hm.setDefault _ ht) fun a b h => ih _ _ _ _ _ _ h
      | enter =>
        refine one (hm.get _ ht) fun a b h => run (ih _ _ _ _ _ _ h) fun _ _ _ a' b' h' => ?_
        exact one (nullIf_fits hm (hm.put _ ht h')) fun a b h => ih _ _ _ _ _ _ h
      | exit => exact one (hm.finalize ht) fun a b h => ⟨rfl, rfl, rfl, h⟩
      | setExitNull => exact ih _ _ _ _ _ _ ht
      | appendArray =>
        refine one (hm.appendArray ht) fun a b h => run (ih _ _ _ _ _ _ h) fun _ _ _ a' b' h' => ?_
        exact one (nullIf_fits hm (hm.putArray ht h')) fun a b h => ih _ _ _ _ _ _ h
      | appendMap =>
        refine one (hm.appendMap _ ht) fun a b h => run (ih _ _ _ _ _ _ h) fun _ _ _ a' b' h' => ?_
        exact one (nullIf_fits hm (hm.putMap _ ht h')) fun a b h => ih _ _ _ _ _ _ h
      | call =>
        simp only
        by_cases h0 : arg < 0
        · rw [if_pos h0, if_pos h0]; rfl
        · rw [if_neg h0, if_neg h0]
          exact run (ih _ _ _ _ _ _ ht) fun _ _ _ a' b' h' => ih _ _ _ _ _ _ h'
      | ret => exact stop
      | jump =>
        simp only
        by_cases h0 : arg < 0
        · rw [if_pos h0, if_pos h0]; rfl
        · rw [if_neg h0, if_neg h0]; exact ih _ _ _ _ _ _ ht
      | evalGreater => exact ih _ _ _ _ _ _ ht
      | evalEqual => exact ih _ _ _ _ _ _ ht
      | condJump =>
        simp only
        by_cases hc : fr.cond = true
        · rw [if_pos hc, if_pos hc]
          by_cases h0 : arg < 0
          · rw [if_pos h0, if_pos h0]; rfl
          · rw [if_neg h0, if_neg h0]; exact ih _ _ _ _ _ _ ht
        · rw [if_neg hc, if_neg hc]; exact ih _ _ _ _ _ _ ht
      | addLong => exact ih _ _ _ _ _ _ ht
      | setLong => exact ih _ _ _ _ _ _ ht
      | setInt => exact ih _ _ _ _ _ _ ht
      | multLong => exact ih _ _ _ _ _ _ ht
      | hintSize => exact one (hm.hintSize _ ht) fun a b h => ih _ _ _ _ _ _ h
      | pushLoop => exact run (ih _ _ _ _ _ _ ht) fun _ _ _ a' b' h' => ih _ _ _ _ _ _ h'
      | popLoop => exact stop
      | halt =>
        simp only
        by_cases h0 : arg = 0
        · rw [if_pos h0, if_pos h0]; exact stop
        · rw [if_neg h0, if_neg h0]
          by_cases h1 : arg < 0
          · rw [if_pos h1, if_pos h1]; rfl
          · rw [if_neg h1, if_neg h1]
            cases p.errors[arg.toNat - 1]? <;> rfl
      | nullField => exact one (hm.nullField _ ht) fun a b h => ih _ _ _ _ _ _ h

/-- `Eval` with the one kind ends as with the other. -/
theorem Evaluates.fits (hm : fo.Matches fu M) {r : R} {t : T} {u : U} (ht : M t u) :
    (∀ r' t', Evaluates ro fo p r t (.ok (r', t')) → ∃ u', M t' u' ∧ Evaluates ro fu p r u (.ok (r', u'))) ∧
    (∀ r' u', Evaluates ro fu p r u (.ok (r', u')) → ∃ t', M t' u' ∧ Evaluates ro fo p r t (.ok (r', t'))) ∧
    (∀ e, Evaluates ro fo p r t (.error e) ↔ Evaluates ro fu p r u (.error e)) := by
  have key : ∀ fuel, FitsOut M (evalInner ro fo p fuel 0 {} false r t) (evalInner ro fu p fuel 0 {} false r u) :=
    fun fuel => evalInner_fits hm _ _ _ _ _ _ _ ht
  refine ⟨?_, ?_, ?_⟩
  · rintro r' t' ⟨fuel, h⟩
    have k := key fuel
    unfold evalProg at h
    cases he : evalInner ro fo p fuel 0 {} false r t with
    | timeout => rw [he] at h; cases h
    | err e => rw [he] at h; cases h
    | done ret =>
      rw [he] at h k
      cases h
      cases hf : evalInner ro fu p fuel 0 {} false r u with
      | timeout => rw [hf] at k; exact k.elim
      | err e => rw [hf] at k; exact k.elim
      | done ret' =>
        rw [hf] at k
        refine ⟨ret'.t, k.2.2.2, fuel, ?_⟩
        unfold evalProg
        rw [hf, k.2.2.1]
  · rintro r' u' ⟨fuel, h⟩
    have k := key fuel
    unfold evalProg at h
    cases hf : evalInner ro fu p fuel 0 {} false r u with
    | timeout => rw [hf] at h; cases h
    | err e => rw [hf] at h; cases h
    | done ret' =>
      rw [hf] at h k
      cases h
      cases he : evalInner ro fo p fuel 0 {} false r t with
      | timeout => rw [he] at k; exact k.elim
      | err e => rw [he] at k; exact k.elim
      | done ret =>
        rw [he] at k
        refine ⟨ret.t, k.2.2.2, fuel, ?_⟩
        unfold evalProg
        rw [he, ← k.2.2.1]
  · intro e
    constructor
    · rintro ⟨fuel, h⟩
      have k := key fuel
      unfold evalProg at h
      cases he : evalInner ro fo p fuel 0 {} false r t with
      | timeout => rw [he] at h; cases h
      | done ret => rw [he] at h; cases h
      | err e' =>
        rw [he] at h k
        cases hf : evalInner ro fu p fuel 0 {} false r u with
        | timeout => rw [hf] at k; exact k.elim
        | done ret' => rw [hf] at k; exact k.elim
        | err e'' =>
          rw [hf] at k
          cases k
          refine ⟨fuel, ?_⟩
          unfold evalProg
          rw [hf]; cases h; rfl
    · rintro ⟨fuel, h⟩
      have k := key fuel
      unfold evalProg at h
      cases hf : evalInner ro fu p fuel 0 {} false r u with
      | timeout => rw [hf] at h; cases h
      | done ret' => rw [hf] at h; cases h
      | err e'' =>
        rw [hf] at h k
        cases he : evalInner ro fo p fuel 0 {} false r t with
        | timeout => rw [he] at k; exact k.elim
        | done ret => rw [he] at k; exact k.elim
        | err e' =>
          rw [he] at k
          cases k
          refine ⟨fuel, ?_⟩
          unfold evalProg
          rw [he]; cases h; rfl
end
end Verif
