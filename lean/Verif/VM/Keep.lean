import Verif.VM.Eval
/-
What every operation of a target keeps, the virtual machine keeps.
-/
set_option linter.unusedVariables false
namespace Verif
variable {R T : Type}

/-- All operations keep `P`. -/
structure FieldOps.Keeps (fo : FieldOps T) (P : T → Prop) : Prop where
  setBoolean {t v t'} : P t → fo.setBoolean t v = .ok t' → P t'
  setInt {t v t'} : P t → fo.setInt t v = .ok t' → P t'
  setLong {t v t'} : P t → fo.setLong t v = .ok t' → P t'
  setFloat {t v t'} : P t → fo.setFloat t v = .ok t' → P t'
  setDouble {t v t'} : P t → fo.setDouble t v = .ok t' → P t'
  setBytes {t v t'} : P t → fo.setBytes t v = .ok t' → P t'
  setString {t v t'} : P t → fo.setString t v = .ok t' → P t'
  get {t i t'} : P t → fo.get t i = .ok t' → P t'
  put {t i s} : P t → P s → P (fo.put t i s)
  setDefault {t i t'} : P t → fo.setDefault t i = .ok t' → P t'
  appendMap {t k t'} : P t → fo.appendMap t k = .ok t' → P t'
  putMap {t k s} : P t → P s → P (fo.putMap t k s)
  appendArray {t t'} : P t → fo.appendArray t = .ok t' → P t'
  putArray {t s} : P t → P s → P (fo.putArray t s)
  nullField {t i t'} : P t → fo.nullField t i = .ok t' → P t'
  hintSize {t c t'} : P t → fo.hintSize t c = .ok t' → P t'
  finalize {t t'} : P t → fo.finalize t = .ok t' → P t'

section
variable {ro : ReaderOps R} {fo : FieldOps T} {p : Program} {P : T → Prop}

theorem doSet_keeps (hk : fo.Keeps P) {arg : Int} {fr : Frame} {t t' : T} (ht : P t) (h : doSet fo arg fr t = .ok t') : P t' := by
  unfold doSet at h
  repeat' (split at h)
  all_goals first
    | (cases h; exact ht)
    | exact hk.setBoolean ht h
    | exact hk.setInt ht h
    | exact hk.setLong ht h
    | exact hk.setFloat ht h
    | exact hk.setDouble ht h
    | exact hk.setBytes ht h
    | exact hk.setString ht h

theorem nullIf_keeps (hk : fo.Keeps P) {b : Bool} {i : Int} {t t' : T} (ht : P t) (h : nullIf fo b t i = .ok t') : P t' := by
  unfold nullIf at h
  split at h
  · exact hk.nullField ht h
  · cases h; exact ht

theorem evalInner_keeps (hk : fo.Keeps P) : ∀ n pc fr fl (r : R) (t : T), P t → ∀ ret, evalInner ro fo p n pc fr fl r t = .done ret →
    P ret.t := by
  intro n
  induction n with
  | zero => intro pc fr fl r t _ ret h; simp [evalInner] at h
  | succ n ih =>
    intro pc fr fl r t ht ret h
    unfold evalInner at h
    cases hi : p.instrs[pc]? with
    | none => rw [hi] at h; simp only at h; cases h; exact ht
    | some ins =>
      obtain ⟨op, arg⟩ := ins
      rw [hi] at h
      simp only at h
      have sub : ∀ {pc' fr' fl' r' t' b i} {f : T → T} {k : T → Ret R T → Out (Ret R T)}, P t' → (∀ s, P s → P (f s)) →
          (match evalInner ro fo p n pc' fr' fl' r' t' with
            | .timeout => Out.timeout
            | .err e => Out.err e
            | .done ret => match nullIf fo ret.nil (f ret.t) i with
              | .error e => Out.err e
              | .ok t' => k t' ret) = .done b → ∃ t1 ret, P t1 ∧ k t1 ret = .done b := by
        intro pc' fr' fl' r' t' b i f k h1 h2 h3
        cases he : evalInner ro fo p n pc' fr' fl' r' t' with
        | timeout => rw [he] at h3; cases h3
        | err e => rw [he] at h3; cases h3
        | done ret =>
          rw [he] at h3
          simp only at h3
          cases hn : nullIf fo ret.nil (f ret.t) i with
          | error e => rw [hn] at h3; cases h3
          | ok t1 =>
            rw [hn] at h3
            exact ⟨t1, ret, nullIf_keeps hk (h2 _ (ih _ _ _ _ _ h1 _ he)) hn, h3⟩
      have one : ∀ {x : Except Err T} {k : T → Out (Ret R T)} {b}, (∀ t', x = .ok t' → P t') →
          (match x with | .error e => Out.err e | .ok t' => k t') = .done b → ∃ t1, P t1 ∧ k t1 = .done b := by
        intro x k b h1 h2
        cases x with
        | error e => cases h2
        | ok t' => exact ⟨t', h1 t' rfl, h2⟩
      cases op with
      | read =>
        simp only at h
        cases hx : doRead ro arg fr r with
        | error e => rw [hx] at h; cases h
        | ok x => rw [hx] at h; exact ih _ _ _ _ _ ht _ h
      | set =>
        obtain ⟨t1, h1, h2⟩ := one (fun t' => doSet_keeps hk ht) h
        exact ih _ _ _ _ _ h1 _ h2
      | setDefault =>
        obtain ⟨t1, h1, h2⟩ := one (fun t' => hk.setDefault ht) h
        exact ih _ _ _ _ _ h1 _ h2
      | enter =>
        obtain ⟨t1, h1, h2⟩ := one (fun t' => hk.get ht) h
        obtain ⟨t2, ret', h3, h4⟩ := sub (f := fo.put t arg) h1 (fun s hs => hk.put ht hs) h2
        exact ih _ _ _ _ _ h3 _ h4
      | exit =>
        obtain ⟨t1, h1, h2⟩ := one (fun t' => hk.finalize ht) h
        injection h2 with h2
        subst h2
        exact h1
      | setExitNull => exact ih _ _ _ _ _ ht _ h
      | appendArray =>
        obtain ⟨t1, h1, h2⟩ := one (fun t' => hk.appendArray ht) h
        obtain ⟨t2, ret', h3, h4⟩ := sub (f := fo.putArray t) h1 (fun s hs => hk.putArray ht hs) h2
        exact ih _ _ _ _ _ h3 _ h4
      | appendMap =>
        obtain ⟨t1, h1, h2⟩ := one (fun t' => hk.appendMap ht) h
        obtain ⟨t2, ret', h3, h4⟩ := sub (f := fo.putMap t fr.string) h1 (fun s hs => hk.putMap ht hs) h2
        exact ih _ _ _ _ _ h3 _ h4
      | call =>
        simp only at h
        split at h
        · cases h
        · cases he : evalInner ro fo p n arg.toNat {} false r t with
          | timeout => rw [he] at h; cases h
          | err e => rw [he] at h; cases h
          | done ret' => rw [he] at h; exact ih _ _ _ _ _ (ih _ _ _ _ _ ht _ he) _ h
      | ret => cases h; exact ht
      | jump =>
        simp only at h
        split at h
        · cases h
        · exact ih _ _ _ _ _ ht _ h
      | evalGreater => exact ih _ _ _ _ _ ht _ h
      | evalEqual => exact ih _ _ _ _ _ ht _ h
      | condJump =>
        simp only at h
        split at h
        · split at h
          · cases h
          · exact ih _ _ _ _ _ ht _ h
        · exact ih _ _ _ _ _ ht _ h
      | addLong => exact ih _ _ _ _ _ ht _ h
      | setLong => exact ih _ _ _ _ _ ht _ h
      | setInt => exact ih _ _ _ _ _ ht _ h
      | multLong => exact ih _ _ _ _ _ ht _ h
      | hintSize =>
        obtain ⟨t1, h1, h2⟩ := one (fun t' => hk.hintSize ht) h
        exact ih _ _ _ _ _ h1 _ h2
      | pushLoop =>
        simp only at h
        cases he : evalInner ro fo p n (pc + 1) {} false r t with
        | timeout => rw [he] at h; cases h
        | err e => rw [he] at h; cases h
        | done ret' => rw [he] at h; exact ih _ _ _ _ _ (ih _ _ _ _ _ ht _ he) _ h
      | popLoop => cases h; exact ht
      | halt =>
        simp only at h
        split at h
        · cases h; exact ht
        · split at h
          · cases h
          · split at h <;> cases h
      | nullField =>
        obtain ⟨t1, h1, h2⟩ := one (fun t' => hk.nullField ht) h
        exact ih _ _ _ _ _ h1 _ h2

theorem Evaluates.keeps (hk : fo.Keeps P) {r r' : R} {t t' : T} (ht : P t) (h : Evaluates ro fo p r t (.ok (r', t'))) : P t' := by
  obtain ⟨fuel, h⟩ := h
  unfold evalProg at h
  cases he : evalInner ro fo p fuel 0 {} false r t with
  | timeout => rw [he] at h; cases h
  | err e => rw [he] at h; cases h
  | done ret =>
    rw [he] at h
    cases h
    exact evalInner_keeps hk _ _ _ _ _ _ ht _ he
end
end Verif
