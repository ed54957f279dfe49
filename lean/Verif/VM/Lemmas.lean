import Verif.VM.Eval
/-
Fuel monotonicity of the virtual machine and reasoning about reachable states.
-/
namespace Verif
variable {R T : Type}

/-- State of an activation. -/
structure St (R T : Type) where
  pc : Nat
  fr : Frame
  fl : Bool
  r : R
  t : T

section
variable (ro : ReaderOps R) (fo : FieldOps T) (p : Program)

def ev (n : Nat) (s : St R T) : Out (Ret R T) := evalInner ro fo p n s.pc s.fr s.fl s.r s.t

theorem evalInner_mono : ∀ n pc fr fl (r : R) (t : T),
    evalInner ro fo p n pc fr fl r t ≠ .timeout →
    ∀ m, n ≤ m → evalInner ro fo p m pc fr fl r t = evalInner ro fo p n pc fr fl r t := by
  intro n
  induction n with
  | zero => intro pc fr fl r t h; simp [evalInner] at h
  | succ n ih =>
    intro pc fr fl r t h m hm
    obtain ⟨m, rfl⟩ : ∃ k, m = k + 1 := ⟨m - 1, by omega⟩
    have hm' : n ≤ m := by omega
    have key : ∀ pc fr fl (r : R) (t : T), evalInner ro fo p n pc fr fl r t ≠ .timeout →
      evalInner ro fo p m pc fr fl r t = evalInner ro fo p n pc fr fl r t :=
      fun pc fr fl r t hh => ih pc fr fl r t hh m hm'
    unfold evalInner at h ⊢
    cases hi : p.instrs[pc]? with
    | none => rfl
    | some i =>
      obtain ⟨op, arg⟩ := i
      simp only [hi] at h ⊢
      cases op <;> simp only at h ⊢
      case read => cases hx : doRead ro arg fr r <;> simp only [hx] at h ⊢; exact key _ _ _ _ _ h
      case set => cases hx : doSet fo arg fr t <;> simp only [hx] at h ⊢; exact key _ _ _ _ _ h
      case setDefault => cases hx : fo.setDefault t arg <;> simp only [hx] at h ⊢; exact key _ _ _ _ _ h
      case nullField => cases hx : fo.nullField t arg <;> simp only [hx] at h ⊢; exact key _ _ _ _ _ h
      case hintSize => cases hx : fo.hintSize t fr.long <;> simp only [hx] at h ⊢; exact key _ _ _ _ _ h
      case setExitNull => exact key _ _ _ _ _ h
      case evalGreater => exact key _ _ _ _ _ h
      case evalEqual => exact key _ _ _ _ _ h
      case addLong => exact key _ _ _ _ _ h
      case setLong => exact key _ _ _ _ _ h
      case setInt => exact key _ _ _ _ _ h
      case multLong => exact key _ _ _ _ _ h
      case jump => split at h <;> rename_i hc <;> simp only [hc, if_true, if_false] at h ⊢ <;> first | rfl | exact key _ _ _ _ _ h
      case condJump =>
        by_cases hc : fr.cond = true
        · simp only [hc, if_true] at h ⊢
          by_cases ha : arg < 0
          · simp only [ha, if_true]
          · simp only [ha, if_false] at h ⊢; exact key _ _ _ _ _ h
        · simp only [hc] at h ⊢; exact key _ _ _ _ _ h
      case enter =>
        cases hx : fo.get t arg <;> simp only [hx] at h ⊢
        rename_i sub
        cases hs : evalInner ro fo p n (pc + 1) {} false r sub <;> simp only [hs] at h
        · rw [key _ _ _ _ _ (by rw [hs]; simp), hs]; simp only
          rename_i ret
          cases hn : nullIf fo ret.nil (fo.put t arg ret.t) arg <;> simp only [hn] at h ⊢; exact key _ _ _ _ _ h
        · rw [key _ _ _ _ _ (by rw [hs]; simp), hs]
        · exact absurd rfl h
      case appendArray =>
        cases hx : fo.appendArray t <;> simp only [hx] at h ⊢
        rename_i sub
        cases hs : evalInner ro fo p n (pc + 1) {} false r sub <;> simp only [hs] at h
        · rw [key _ _ _ _ _ (by rw [hs]; simp), hs]; simp only
          rename_i ret
          cases hn : nullIf fo ret.nil (fo.putArray t ret.t) (-1) <;> simp only [hn] at h ⊢; exact key _ _ _ _ _ h
        · rw [key _ _ _ _ _ (by rw [hs]; simp), hs]
        · exact absurd rfl h
      case appendMap =>
        cases hx : fo.appendMap t fr.string <;> simp only [hx] at h ⊢
        rename_i sub
        cases hs : evalInner ro fo p n (pc + 1) {} false r sub <;> simp only [hs] at h
        · rw [key _ _ _ _ _ (by rw [hs]; simp), hs]; simp only
          rename_i ret
          cases hn : nullIf fo ret.nil (fo.putMap t fr.string ret.t) (-1) <;> simp only [hn] at h ⊢; exact key _ _ _ _ _ h
        · rw [key _ _ _ _ _ (by rw [hs]; simp), hs]
        · exact absurd rfl h
      case call =>
        by_cases ha : arg < 0 <;> simp only [ha, if_true, if_false] at h ⊢
        cases hs : evalInner ro fo p n arg.toNat {} false r t <;> simp only [hs] at h
        · rw [key _ _ _ _ _ (by rw [hs]; simp), hs]; exact key _ _ _ _ _ h
        · rw [key _ _ _ _ _ (by rw [hs]; simp), hs]
        · exact absurd rfl h
      case pushLoop =>
        cases hs : evalInner ro fo p n (pc + 1) {} false r t <;> simp only [hs] at h
        · rw [key _ _ _ _ _ (by rw [hs]; simp), hs]; exact key _ _ _ _ _ h
        · rw [key _ _ _ _ _ (by rw [hs]; simp), hs]
        · exact absurd rfl h

/-- The activation in state `s` ends with outcome `out`. -/
def Evals (s : St R T) (out : Out (Ret R T)) : Prop := out ≠ .timeout ∧ ∃ n, ev ro fo p n s = out

theorem Evals.det {s : St R T} {o o'} (h : Evals ro fo p s o) (h' : Evals ro fo p s o') : o = o' := by
  obtain ⟨ho, n, hn⟩ := h
  obtain ⟨ho', m, hm⟩ := h'
  rcases Nat.le_total n m with hle | hle
  · rw [← hn, ← hm]; exact (evalInner_mono ro fo p n _ _ _ _ _ (by rw [← hn] at ho; exact ho) m hle).symm
  · rw [← hn, ← hm]; exact (evalInner_mono ro fo p m _ _ _ _ _ (by rw [← hm] at ho'; exact ho') n hle)

/-- Whatever outcome `s'` has, `s` has. -/
def Reaches (s s' : St R T) : Prop := ∀ out, Evals ro fo p s' out → Evals ro fo p s out

theorem Reaches.refl (s : St R T) : Reaches ro fo p s s := fun _ h => h
variable {ro fo p} in
theorem Reaches.trans {a b c : St R T} (h : Reaches ro fo p a b) (h' : Reaches ro fo p b c) :
    Reaches ro fo p a c := fun o ho => h o (h' o ho)

/-- A step that only moves on. -/
theorem reaches_of_step {s s' : St R T}
    (h : ∀ n, ev ro fo p (n + 1) s = ev ro fo p n s') : Reaches ro fo p s s' := by
  intro o ⟨ho, n, hn⟩
  exact ⟨ho, n + 1, by rw [h, hn]⟩

theorem evals_of_step {s : St R T} {o : Out (Ret R T)} (ho : o ≠ .timeout)
    (h : ev ro fo p 1 s = o) : Evals ro fo p s o := ⟨ho, 1, h⟩

/-- A step that runs a nested activation `sub` and moves on from what it leaves. -/
theorem reaches_of_call {s s' sub : St R T} {ret : Ret R T}
    (hsub : Evals ro fo p sub (.done ret))
    (h : ∀ n, ev ro fo p n sub = .done ret → ev ro fo p (n + 1) s = ev ro fo p n s') :
    Reaches ro fo p s s' := by
  intro o ⟨ho, n, hn⟩
  obtain ⟨-, m, hm⟩ := hsub
  have h1 : ev ro fo p (max n m) sub = .done ret := by
    rw [← hm]; exact evalInner_mono ro fo p m _ _ _ _ _ (by rw [← ev, hm]; simp) _ (Nat.le_max_right _ _)
  have h2 : ev ro fo p (max n m) s' = o := by
    rw [← hn]; exact evalInner_mono ro fo p n _ _ _ _ _ (by rw [← ev, hn]; exact ho) _ (Nat.le_max_left _ _)
  exact ⟨ho, max n m + 1, by rw [h _ h1, h2]⟩

/-- A step whose nested activation fails. -/
theorem evals_err_of_call {s sub : St R T} {e : Err}
    (hsub : Evals ro fo p sub (.err e))
    (h : ∀ n, ev ro fo p n sub = .err e → ev ro fo p (n + 1) s = .err e) :
    Evals ro fo p s (.err e) := by
  obtain ⟨-, m, hm⟩ := hsub
  exact ⟨by simp, m + 1, h m hm⟩

/-- A step whose nested activation ends and whose aftermath fails. -/
theorem evals_err_of_call_done {s sub : St R T} {ret : Ret R T} {e : Err}
    (hsub : Evals ro fo p sub (.done ret))
    (h : ∀ n, ev ro fo p n sub = .done ret → ev ro fo p (n + 1) s = .err e) :
    Evals ro fo p s (.err e) := by
  obtain ⟨-, m, hm⟩ := hsub
  exact ⟨by simp, m + 1, h m hm⟩
end
end Verif
