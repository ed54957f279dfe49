import Verif.VM.Lemmas
import Verif.Compiler.Interp
/-
Pieces of program that implement a `Sem`.
-/
set_option linter.unusedSimpArgs false
set_option linter.unusedVariables false
namespace Verif
variable {R T : Type} {ro : ReaderOps R} {fo : FieldOps T} {prog : Program}

/-- The instructions from `p` to `q` do what `S` says, whatever the frame. -/
def Impl (ro : ReaderOps R) (fo : FieldOps T) (prog : Program) (p q : Nat) (S : Sem R T) : Prop :=
  ∀ fr fl r t,
    (∀ nf r' t', S r t = .done (nf, r', t') →
      ∃ fr', Reaches ro fo prog ⟨p, fr, fl, r, t⟩ ⟨q, fr', fl || nf, r', t'⟩) ∧
    (∀ e, S r t = .err e → Evals ro fo prog ⟨p, fr, fl, r, t⟩ (.err e))

theorem Impl.skip (p : Nat) : Impl ro fo prog p p Sem.skip := by
  intro fr fl r t
  refine ⟨?_, ?_⟩
  · intro nf r' t' h
    simp only [Sem.skip, Out.done.injEq, Prod.mk.injEq] at h
    obtain ⟨rfl, rfl, rfl⟩ := h
    exact ⟨fr, by rw [Bool.or_false]; exact Reaches.refl _ _ _ _⟩
  · intro e h; simp [Sem.skip] at h

theorem Impl.seq {p m q : Nat} {A B : Sem R T} (ha : Impl ro fo prog p m A)
    (hb : Impl ro fo prog m q B) : Impl ro fo prog p q (A.seq B) := by
  intro fr fl r t
  obtain ⟨h1, h2⟩ := ha fr fl r t
  unfold Sem.seq
  cases hA : A r t with
  | timeout => simp
  | err e => simp only [reduceCtorEq, false_implies, implies_true, true_and, Out.err.injEq]
             rintro _ rfl; exact h2 _ hA
  | done x =>
    obtain ⟨f, r', t'⟩ := x
    obtain ⟨fr', hr⟩ := h1 _ _ _ hA
    obtain ⟨h3, h4⟩ := hb fr' (fl || f) r' t'
    simp only
    cases hB : B r' t' with
    | timeout => simp
    | err e => simp only [reduceCtorEq, false_implies, implies_true, true_and, Out.err.injEq]
               rintro _ rfl; exact hr _ (h4 _ hB)
    | done y =>
      obtain ⟨f', r'', t''⟩ := y
      obtain ⟨fr'', hr'⟩ := h3 _ _ _ hB
      simp only [reduceCtorEq, false_implies, implies_true, and_true]
      intro nf _ _ h
      simp only [Out.done.injEq, Prod.mk.injEq] at h
      obtain ⟨rfl, rfl, rfl⟩ := h
      exact ⟨fr'', by rw [← Bool.or_assoc]; exact hr.trans hr'⟩

/-- Prefix a silent move. -/
theorem Impl.after {p m q : Nat} {A : Sem R T}
    (h : ∀ fr fl (r : R) (t : T), ∃ fr', Reaches ro fo prog ⟨p, fr, fl, r, t⟩ ⟨m, fr', fl, r, t⟩)
    (ha : Impl ro fo prog m q A) : Impl ro fo prog p q A := by
  intro fr fl r t
  obtain ⟨fr', hr⟩ := h fr fl r t
  obtain ⟨h1, h2⟩ := ha fr' fl r t
  exact ⟨fun nf r' t' hh => (h1 nf r' t' hh).imp fun _ hx => hr.trans hx, fun e he => hr _ (h2 e he)⟩

/-- Append a silent move. -/
theorem Impl.before {p m q : Nat} {A : Sem R T} (ha : Impl ro fo prog p m A)
    (h : ∀ fr fl (r : R) (t : T), ∃ fr', Reaches ro fo prog ⟨m, fr, fl, r, t⟩ ⟨q, fr', fl, r, t⟩) :
    Impl ro fo prog p q A := by
  intro fr fl r t
  obtain ⟨h1, h2⟩ := ha fr fl r t
  refine ⟨fun nf r' t' hh => ?_, h2⟩
  obtain ⟨fr', hr⟩ := h1 nf r' t' hh
  obtain ⟨fr'', hr'⟩ := h fr' (fl || nf) r' t'
  exact ⟨fr'', hr.trans hr'⟩

theorem Impl.congr {p q : Nat} {A B : Sem R T} (ha : Impl ro fo prog p q A) (h : A = B) :
    Impl ro fo prog p q B := h ▸ ha

/-! ### single instructions -/

section
variable {p : Nat} {arg : Int}

theorem reaches_setLong (h : prog.instrs[p]? = some ⟨.setLong, arg⟩) (fr fl) (r : R) (t : T) :
    Reaches ro fo prog ⟨p, fr, fl, r, t⟩ ⟨p + 1, { fr with long := BitVec.ofInt 64 arg }, fl, r, t⟩ :=
  reaches_of_step _ _ _ fun n => by simp [ev, evalInner, h]

theorem reaches_setInt (h : prog.instrs[p]? = some ⟨.setInt, arg⟩) (fr fl) (r : R) (t : T) :
    Reaches ro fo prog ⟨p, fr, fl, r, t⟩ ⟨p + 1, { fr with int := BitVec.ofInt 32 arg }, fl, r, t⟩ :=
  reaches_of_step _ _ _ fun n => by simp [ev, evalInner, h]

theorem reaches_addLong (h : prog.instrs[p]? = some ⟨.addLong, arg⟩) (fr fl) (r : R) (t : T) :
    Reaches ro fo prog ⟨p, fr, fl, r, t⟩ ⟨p + 1, { fr with long := fr.long + BitVec.ofInt 64 arg }, fl, r, t⟩ :=
  reaches_of_step _ _ _ fun n => by simp [ev, evalInner, h]

theorem reaches_multLong (h : prog.instrs[p]? = some ⟨.multLong, arg⟩) (fr fl) (r : R) (t : T) :
    Reaches ro fo prog ⟨p, fr, fl, r, t⟩ ⟨p + 1, { fr with long := fr.long * BitVec.ofInt 64 arg }, fl, r, t⟩ :=
  reaches_of_step _ _ _ fun n => by simp [ev, evalInner, h]

theorem reaches_evalEqual (h : prog.instrs[p]? = some ⟨.evalEqual, arg⟩) (fr fl) (r : R) (t : T) :
    Reaches ro fo prog ⟨p, fr, fl, r, t⟩
      ⟨p + 1, { fr with cond := decide (fr.long.toInt = arg) }, fl, r, t⟩ :=
  reaches_of_step _ _ _ fun n => by simp [ev, evalInner, h]

theorem reaches_evalGreater (h : prog.instrs[p]? = some ⟨.evalGreater, arg⟩) (fr fl) (r : R) (t : T) :
    Reaches ro fo prog ⟨p, fr, fl, r, t⟩
      ⟨p + 1, { fr with cond := decide (arg < fr.long.toInt) }, fl, r, t⟩ :=
  reaches_of_step _ _ _ fun n => by simp [ev, evalInner, h]

theorem reaches_jump {m : Nat} (h : prog.instrs[p]? = some ⟨.jump, (m : Int)⟩) (fr fl) (r : R) (t : T) :
    Reaches ro fo prog ⟨p, fr, fl, r, t⟩ ⟨m, fr, fl, r, t⟩ :=
  reaches_of_step _ _ _ fun n => by
    have h0 : ¬ ((m : Int) < 0) := by omega
    simp only [ev, evalInner, h, h0, if_false, Int.toNat_natCast]

theorem reaches_condJump_true {m : Nat} (h : prog.instrs[p]? = some ⟨.condJump, (m : Int)⟩) (fr : Frame)
    (hc : fr.cond = true) (fl) (r : R) (t : T) :
    Reaches ro fo prog ⟨p, fr, fl, r, t⟩ ⟨m, fr, fl, r, t⟩ :=
  reaches_of_step _ _ _ fun n => by
    have h0 : ¬ ((m : Int) < 0) := by omega
    simp only [ev, evalInner, h, hc, h0, if_false, if_true, Int.toNat_natCast]

theorem reaches_condJump_false {m : Nat} (h : prog.instrs[p]? = some ⟨.condJump, (m : Int)⟩) (fr : Frame)
    (hc : fr.cond = false) (fl) (r : R) (t : T) :
    Reaches ro fo prog ⟨p, fr, fl, r, t⟩ ⟨p + 1, fr, fl, r, t⟩ :=
  reaches_of_step _ _ _ fun n => by simp [ev, evalInner, h, hc]

theorem reaches_read (h : prog.instrs[p]? = some ⟨.read, arg⟩) (fr fl) (r : R) (t : T) {fr' r'}
    (hd : doRead ro arg fr r = .ok (fr', r')) :
    Reaches ro fo prog ⟨p, fr, fl, r, t⟩ ⟨p + 1, fr', fl, r', t⟩ :=
  reaches_of_step _ _ _ fun n => by simp [ev, evalInner, h, hd]

theorem evals_read (h : prog.instrs[p]? = some ⟨.read, arg⟩) (fr fl) (r : R) (t : T) {e}
    (hd : doRead ro arg fr r = .error e) :
    Evals ro fo prog ⟨p, fr, fl, r, t⟩ (.err e) :=
  evals_of_step _ _ _ (by simp) (by simp [ev, evalInner, h, hd])

theorem reaches_set (h : prog.instrs[p]? = some ⟨.set, arg⟩) (fr fl) (r : R) (t : T) {t'}
    (hd : doSet fo arg fr t = .ok t') :
    Reaches ro fo prog ⟨p, fr, fl, r, t⟩ ⟨p + 1, fr, fl, r, t'⟩ :=
  reaches_of_step _ _ _ fun n => by simp [ev, evalInner, h, hd]

theorem evals_set (h : prog.instrs[p]? = some ⟨.set, arg⟩) (fr fl) (r : R) (t : T) {e}
    (hd : doSet fo arg fr t = .error e) :
    Evals ro fo prog ⟨p, fr, fl, r, t⟩ (.err e) :=
  evals_of_step _ _ _ (by simp) (by simp [ev, evalInner, h, hd])

theorem impl_halt {k : Nat} {m : Msg} (h : prog.instrs[p]? = some ⟨.halt, ((k + 1 : Nat) : Int)⟩)
    (he : prog.errors[k]? = some m) (q : Nat) : Impl ro fo prog p q (.fail (.runtime m)) := by
  intro fr fl r t
  refine ⟨fun _ _ _ hh => by simp [Sem.fail] at hh, fun e hh => ?_⟩
  simp only [Sem.fail, Out.err.injEq] at hh
  subst hh
  refine evals_of_step _ _ _ (by simp) ?_
  have h0 : ¬ (((k + 1 : Nat) : Int) = 0) := by omega
  have h1 : ¬ (((k + 1 : Nat) : Int) < 0) := by omega
  simp only [ev, evalInner, h, h0, h1, if_false]
  simp [he]

theorem impl_nullExit (h : prog.instrs[p]? = some ⟨.setExitNull, arg⟩) :
    Impl ro fo prog p (p + 1) Sem.nullExit := by
  intro fr fl r t
  refine ⟨fun nf r' t' hh => ?_, fun e hh => by simp [Sem.nullExit] at hh⟩
  simp only [Sem.nullExit, Out.done.injEq, Prod.mk.injEq] at hh
  obtain ⟨rfl, rfl, rfl⟩ := hh
  exact ⟨fr, reaches_of_step _ _ _ fun n => by simp [ev, evalInner, h]⟩

theorem impl_setDefault (h : prog.instrs[p]? = some ⟨.setDefault, arg⟩) :
    Impl ro fo prog p (p + 1) (.act fun t => fo.setDefault t arg) := by
  intro fr fl r t
  simp only [Sem.act]
  cases hx : fo.setDefault t arg with
  | error e =>
    simp only [reduceCtorEq, false_implies, implies_true, true_and, Out.err.injEq]
    rintro _ rfl
    exact evals_of_step _ _ _ (by simp) (by simp [ev, evalInner, h, hx])
  | ok t1 =>
    simp only [reduceCtorEq, false_implies, implies_true, and_true, Out.done.injEq, Prod.mk.injEq]
    rintro nf r' t' ⟨rfl, rfl, rfl⟩
    exact ⟨fr, reaches_of_step _ _ _ fun n => by simp [ev, evalInner, h, hx]⟩
end

/-- Move the frame's value into the target. -/
theorem impl_set_after {p : Nat} {arg : Int} (h : prog.instrs[p]? = some ⟨.set, arg⟩)
    (fr : Frame) (fl) (r : R) (t : T) {f : T → Except Err T} (hs : doSet fo arg fr t = f t) :
    (∀ nf r' t', Sem.act f r t = .done (nf, r', t') →
      Reaches ro fo prog ⟨p, fr, fl, r, t⟩ ⟨p + 1, fr, fl || nf, r', t'⟩) ∧
    (∀ e, (Sem.act f : Sem R T) r t = .err e → Evals ro fo prog ⟨p, fr, fl, r, t⟩ (.err e)) := by
  simp only [Sem.act]
  cases hx : f t with
  | error e =>
    simp only [reduceCtorEq, false_implies, implies_true, true_and, Out.err.injEq]
    rintro _ rfl
    exact evals_set h _ _ _ _ (hs.trans hx)
  | ok t1 =>
    simp only [reduceCtorEq, false_implies, implies_true, and_true, Out.done.injEq, Prod.mk.injEq]
    rintro nf r' t' ⟨rfl, rfl, rfl⟩
    rw [Bool.or_false]
    exact reaches_set h _ _ _ _ (hs.trans hx)

/-- A read that ends the piece. -/
theorem impl_read_skip {α : Type} {p : Nat} {arg : Int} {rd : R → Except Err (α × R)}
    {upd : Frame → α → Frame}
    (h : prog.instrs[p]? = some ⟨.read, arg⟩)
    (hr : ∀ fr r, doRead ro arg fr r = mapOk (upd fr) (rd r)) :
    Impl ro fo prog p (p + 1) (.read rd fun _ => .skip) := by
  intro fr fl r t
  unfold Sem.read
  cases hx : rd r with
  | error e =>
    simp only [reduceCtorEq, false_implies, implies_true, true_and, Out.err.injEq]
    rintro _ rfl
    exact evals_read h _ _ _ _ (by rw [hr, hx]; rfl)
  | ok x =>
    obtain ⟨a, r1⟩ := x
    simp only [Sem.skip, reduceCtorEq, false_implies, implies_true, and_true, Out.done.injEq, Prod.mk.injEq]
    rintro nf r' t' ⟨rfl, rfl, rfl⟩
    rw [Bool.or_false]
    exact ⟨_, reaches_read h _ _ _ _ (by rw [hr, hx]; rfl)⟩

/-- A read followed by something that depends on the value. -/
theorem impl_read {α : Type} {p q : Nat} {arg : Int} {rd : R → Except Err (α × R)}
    {upd : Frame → α → Frame} {K : α → Sem R T}
    (h : prog.instrs[p]? = some ⟨.read, arg⟩)
    (hr : ∀ fr r, doRead ro arg fr r = mapOk (upd fr) (rd r))
    (hk : ∀ a fr fl r t,
      (∀ nf r' t', K a r t = .done (nf, r', t') →
        ∃ fr', Reaches ro fo prog ⟨p + 1, upd fr a, fl, r, t⟩ ⟨q, fr', fl || nf, r', t'⟩) ∧
      (∀ e, K a r t = .err e → Evals ro fo prog ⟨p + 1, upd fr a, fl, r, t⟩ (.err e))) :
    Impl ro fo prog p q (.read rd K) := by
  intro fr fl r t
  unfold Sem.read
  cases hx : rd r with
  | error e =>
    simp only [reduceCtorEq, false_implies, implies_true, true_and, Out.err.injEq]
    rintro _ rfl
    exact evals_read h _ _ _ _ (by rw [hr, hx]; rfl)
  | ok x =>
    obtain ⟨a, r1⟩ := x
    have hre := reaches_read (fo := fo) h fr fl r t (fr' := upd fr a) (r' := r1) (by rw [hr, hx]; rfl)
    obtain ⟨h1, h2⟩ := hk a fr fl r1 t
    exact ⟨fun nf r' t' hh => (h1 nf r' t' hh).imp fun _ hz => hre.trans hz,
      fun e he => hre _ (h2 e he)⟩

/-- "Read X; Set X". -/
theorem impl_prim_some {α : Type} {p : Nat} {arg : Int} {rd : R → Except Err (α × R)}
    {upd : Frame → α → Frame} {set : T → α → Except Err T} {ty : Ty}
    (h : prog.instrs[p]? = some ⟨.read, arg⟩) (h' : prog.instrs[p + 1]? = some ⟨.set, arg⟩)
    (hr : ∀ fr r, doRead ro arg fr r = mapOk (upd fr) (rd r))
    (hs : ∀ fr a t, doSet fo arg (upd fr a) t = set t a) :
    Impl ro fo prog p (p + 2) (.prim rd set (some ty)) := by
  refine impl_read h hr fun a fr fl r t => ?_
  obtain ⟨h1, h2⟩ := impl_set_after (ro := ro) h' (upd fr a) fl r t (f := fun t => set t a) (hs fr a t)
  exact ⟨fun nf r' t' hh => ⟨_, h1 nf r' t' hh⟩, h2⟩

theorem impl_prim_none {α : Type} {p : Nat} {arg : Int} {rd : R → Except Err (α × R)}
    {upd : Frame → α → Frame} {set : T → α → Except Err T}
    (h : prog.instrs[p]? = some ⟨.read, arg⟩)
    (hr : ∀ fr r, doRead ro arg fr r = mapOk (upd fr) (rd r)) :
    Impl ro fo prog p (p + 1) (.prim rd set none) :=
  impl_read_skip h hr

/-- "SetLong i; Set Long". -/
theorem impl_setLong {p : Nat} {i : Int}
    (h : prog.instrs[p]? = some ⟨.setLong, i⟩) (h' : prog.instrs[p + 1]? = some ⟨.set, opLong⟩) :
    Impl ro fo prog p (p + 2) (.act fun t => fo.setLong t (BitVec.ofInt 64 i)) := by
  intro fr fl r t
  have hre := reaches_setLong (ro := ro) (fo := fo) h fr fl r t
  obtain ⟨h1, h2⟩ := impl_set_after (ro := ro) h' { fr with long := BitVec.ofInt 64 i } fl r t
    (f := fun t => fo.setLong t (BitVec.ofInt 64 i)) rfl
  exact ⟨fun nf r' t' hh => ⟨_, hre.trans (h1 nf r' t' hh)⟩, fun e he => hre _ (h2 e he)⟩

/-- "SetInt i; Set Int". -/
theorem impl_setInt {p : Nat} {i : Int}
    (h : prog.instrs[p]? = some ⟨.setInt, i⟩) (h' : prog.instrs[p + 1]? = some ⟨.set, opInt⟩) :
    Impl ro fo prog p (p + 2) (.act fun t => fo.setInt t (BitVec.ofInt 32 i)) := by
  intro fr fl r t
  have hre := reaches_setInt (ro := ro) (fo := fo) h fr fl r t
  obtain ⟨h1, h2⟩ := impl_set_after (ro := ro) h' { fr with int := BitVec.ofInt 32 i } fl r t
    (f := fun t => fo.setInt t (BitVec.ofInt 32 i)) rfl
  exact ⟨fun nf r' t' hh => ⟨_, hre.trans (h1 nf r' t' hh)⟩, fun e he => hre _ (h2 e he)⟩

/-- The outcome of a sub-activation that runs `A` and then exits. -/
theorem evals_exit {p q : Nat} {x : Int} {A : Sem R T} (ha : Impl ro fo prog p q A)
    (hx : prog.instrs[q]? = some ⟨.exit, x⟩) (r : R) (s : T) :
    (∀ f r' s', A r s = .done (f, r', s') →
      (∀ s'', fo.finalize s' = .ok s'' →
        Evals ro fo prog ⟨p, {}, false, r, s⟩ (.done ⟨f, q, r', s''⟩)) ∧
      (∀ e, fo.finalize s' = .error e → Evals ro fo prog ⟨p, {}, false, r, s⟩ (.err e))) ∧
    (∀ e, A r s = .err e → Evals ro fo prog ⟨p, {}, false, r, s⟩ (.err e)) := by
  obtain ⟨h1, h2⟩ := ha {} false r s
  refine ⟨fun f r' s' hA => ?_, h2⟩
  obtain ⟨fr', hr⟩ := h1 f r' s' hA
  rw [Bool.false_or] at hr
  refine ⟨fun s'' hf => hr _ (evals_of_step _ _ _ (by simp) ?_),
    fun e hf => hr _ (evals_of_step _ _ _ (by simp) ?_)⟩ <;> simp [ev, evalInner, hx, hf]

/-- A piece that runs on a sub-target: `Enter`, `AppendArray`, `AppendMap`. -/
theorem impl_sub_at {p q : Nat} {x nul : Int} {A : Sem R T} {get : T → Except Err T}
    {put : T → T → T} (fr : Frame) (fl : Bool) (r : R) (t : T)
    (ha : Impl ro fo prog (p + 1) q A)
    (hx : prog.instrs[q]? = some ⟨.exit, x⟩)
    (hstep : ∀ n, evalInner ro fo prog (n + 1) p fr fl r t =
      match get t with
      | .error e => .err e
      | .ok sub => match evalInner ro fo prog n (p + 1) {} false r sub with
        | .timeout => .timeout
        | .err e => .err e
        | .done ret => match nullIf fo ret.nil (put t ret.t) nul with
          | .error e => .err e
          | .ok t' => evalInner ro fo prog n (ret.pc + 1) fr fl ret.r t') :
    (∀ nf r' t', Sem.sub fo get put nul A r t = .done (nf, r', t') →
      Reaches ro fo prog ⟨p, fr, fl, r, t⟩ ⟨q + 1, fr, fl || nf, r', t'⟩) ∧
    (∀ e, Sem.sub fo get put nul A r t = .err e → Evals ro fo prog ⟨p, fr, fl, r, t⟩ (.err e)) := by
  unfold Sem.sub
  cases hg : get t with
  | error e =>
    simp only [reduceCtorEq, false_implies, implies_true, true_and, Out.err.injEq]
    rintro _ rfl
    exact evals_of_step _ _ _ (by simp) (by simp [ev, hstep, hg])
  | ok s =>
    obtain ⟨h1, h2⟩ := evals_exit ha hx r s
    simp only
    cases hA : A r s with
    | timeout => simp
    | err e =>
      simp only [reduceCtorEq, false_implies, implies_true, true_and, Out.err.injEq]
      rintro _ rfl
      exact evals_err_of_call _ _ _ (h2 _ hA) fun n hn => by
        simp only [ev] at hn; simp only [ev, hstep, hg, hn]
    | done y =>
      obtain ⟨f, r1, s1⟩ := y
      obtain ⟨h3, h4⟩ := h1 _ _ _ hA
      simp only
      cases hf : fo.finalize s1 with
      | error e =>
        simp only [reduceCtorEq, false_implies, implies_true, true_and, Out.err.injEq]
        rintro _ rfl
        exact evals_err_of_call _ _ _ (h4 _ hf) fun n hn => by
          simp only [ev] at hn; simp only [ev, hstep, hg, hn]
      | ok s2 =>
        have h5 := h3 _ hf
        simp only
        cases hn : nullIf fo f (put t s2) nul with
        | error e =>
          simp only [reduceCtorEq, false_implies, implies_true, true_and, Out.err.injEq]
          rintro _ rfl
          exact evals_err_of_call_done _ _ _ h5 fun n hn' => by
            simp only [ev] at hn'; simp only [ev, hstep, hg, hn', hn]
        | ok t1 =>
          simp only [reduceCtorEq, false_implies, implies_true, and_true, Out.done.injEq,
            Prod.mk.injEq]
          rintro nf r' t' ⟨rfl, rfl, rfl⟩
          rw [Bool.or_false]
          exact reaches_of_call _ _ _ h5 fun n hn' => by
            simp only [ev] at hn'; simp only [ev, hstep, hg, hn', hn]

theorem impl_field {p q i : Nat} {x : Int} {A : Sem R T}
    (h : prog.instrs[p]? = some ⟨.enter, (i : Int)⟩)
    (ha : Impl ro fo prog (p + 1) q A) (hx : prog.instrs[q]? = some ⟨.exit, x⟩) :
    Impl ro fo prog p (q + 1) (.field fo i A) := by
  intro fr fl r t
  obtain ⟨h1, h2⟩ := impl_sub_at (get := fun t => fo.get t i) (put := fun t s => fo.put t i s)
    (nul := (i : Int)) fr fl r t ha hx (fun n => by simp only [evalInner, h]; rfl)
  exact ⟨fun nf r' t' hh => ⟨fr, h1 nf r' t' hh⟩, h2⟩

theorem impl_item {p q : Nat} {x y : Int} {A : Sem R T}
    (h : prog.instrs[p]? = some ⟨.appendArray, y⟩)
    (ha : Impl ro fo prog (p + 1) q A) (hx : prog.instrs[q]? = some ⟨.exit, x⟩) :
    Impl ro fo prog p (q + 1) (itemSem fo A) := by
  intro fr fl r t
  obtain ⟨h1, h2⟩ := impl_sub_at (get := fo.appendArray) (put := fo.putArray)
    (nul := -1) fr fl r t ha hx (fun n => by simp only [evalInner, h]; rfl)
  exact ⟨fun nf r' t' hh => ⟨fr, h1 nf r' t' hh⟩, h2⟩

theorem impl_entry {p q : Nat} {x y : Int} {A : Sem R T}
    (h : prog.instrs[p]? = some ⟨.read, opString⟩)
    (h' : prog.instrs[p + 1]? = some ⟨.appendMap, y⟩)
    (ha : Impl ro fo prog (p + 2) q A) (hx : prog.instrs[q]? = some ⟨.exit, x⟩) :
    Impl ro fo prog p (q + 1) (entrySem ro fo A) := by
  refine impl_read (upd := fun fr v => { fr with string := v }) h (fun fr r => rfl) fun k fr fl r t => ?_
  obtain ⟨h1, h2⟩ := impl_sub_at (p := p + 1) (get := fun t => fo.appendMap t k)
    (put := fun t s => fo.putMap t k s)
    (nul := -1) { fr with string := k } fl r t ha hx (fun n => by simp only [evalInner, h']; rfl)
  exact ⟨fun nf r' t' hh => ⟨_, h1 nf r' t' hh⟩, h2⟩

/-- Reading a key that is not wanted. -/
theorem impl_key_skip {p q : Nat} {A : Sem R T}
    (h : prog.instrs[p]? = some ⟨.read, opString⟩) (ha : Impl ro fo prog (p + 1) q A) :
    Impl ro fo prog p q (.read (readString ro) fun _ => A) :=
  impl_read (upd := fun fr v => { fr with string := v }) h (fun fr r => rfl)
    fun _ fr fl r t => ha _ fl r t

theorem impl_call {p m q : Nat} {x : Int} {A : Sem R T}
    (h : prog.instrs[p]? = some ⟨.call, (m : Int)⟩)
    (ha : Impl ro fo prog m q A) (hx : prog.instrs[q]? = some ⟨.ret, x⟩) :
    Impl ro fo prog p (p + 1) A.noFlag := by
  intro fr fl r t
  obtain ⟨h1, h2⟩ := ha {} false r t
  unfold Sem.noFlag
  cases hA : A r t with
  | timeout => simp
  | err e =>
    simp only [reduceCtorEq, false_implies, implies_true, true_and, Out.err.injEq]
    rintro _ rfl
    exact evals_err_of_call _ _ _ (h2 _ hA) fun n hn => by
      simp only [ev] at hn
      have h0 : ¬ ((m : Int) < 0) := by omega
      simp only [ev, evalInner, h, h0, if_false, Int.toNat_natCast, hn]
  | done y =>
    obtain ⟨f, r1, t1⟩ := y
    obtain ⟨fr', hr⟩ := h1 _ _ _ hA
    simp only [reduceCtorEq, false_implies, implies_true, and_true, Out.done.injEq, Prod.mk.injEq]
    rintro nf r' t' ⟨rfl, rfl, rfl⟩
    refine ⟨fr, ?_⟩
    rw [Bool.or_false]
    have hsub : Evals ro fo prog ⟨m, {}, false, r, t⟩ (.done ⟨false, q, r1, t1⟩) :=
      hr _ (evals_of_step _ _ _ (by simp) (by simp [ev, evalInner, hx]))
    exact reaches_of_call _ _ _ hsub fun n hn => by
      simp only [ev] at hn
      have h0 : ¬ ((m : Int) < 0) := by omega
      simp only [ev, evalInner, h, h0, if_false, Int.toNat_natCast, hn]

end Verif
