import Verif.Compiler.Impl
/-
Blocks and switches.
-/
set_option linter.unusedSimpArgs false
set_option linter.unusedVariables false
namespace Verif
variable {R T : Type} {ro : ReaderOps R} {fo : FieldOps T} {prog : Program}

/-- `Impl` for a given frame; the frame afterwards is arbitrary. -/
def ImplAt (ro : ReaderOps R) (fo : FieldOps T) (prog : Program) (p q : Nat) (S : Sem R T)
    (fr : Frame) : Prop :=
  ∀ fl r t,
    (∀ nf r' t', S r t = .done (nf, r', t') →
      ∃ fr', Reaches ro fo prog ⟨p, fr, fl, r, t⟩ ⟨q, fr', fl || nf, r', t'⟩) ∧
    (∀ e, S r t = .err e → Evals ro fo prog ⟨p, fr, fl, r, t⟩ (.err e))

theorem ImplAt.after {p m q : Nat} {A : Sem R T} {fr fr' : Frame}
    (h : ∀ fl (r : R) (t : T), Reaches ro fo prog ⟨p, fr, fl, r, t⟩ ⟨m, fr', fl, r, t⟩)
    (ha : ImplAt ro fo prog m q A fr') : ImplAt ro fo prog p q A fr := by
  intro fl r t
  obtain ⟨h1, h2⟩ := ha fl r t
  exact ⟨fun nf r' t' hh => (h1 nf r' t' hh).imp fun _ hx => (h fl r t).trans hx,
    fun e he => (h fl r t) _ (h2 e he)⟩

theorem ImplAt.seq {p m q : Nat} {A B : Sem R T} {fr : Frame} (ha : ImplAt ro fo prog p m A fr)
    (hb : Impl ro fo prog m q B) : ImplAt ro fo prog p q (A.seq B) fr := by
  intro fl r t
  obtain ⟨h1, h2⟩ := ha fl r t
  unfold Sem.seq
  cases hA : A r t with
  | timeout => simp
  | err e => simp only [reduceCtorEq, false_implies, implies_true, true_and, Out.err.injEq]
             rintro _ rfl; exact h2 _ hA
  | done x =>
    obtain ⟨f, r', t'⟩ := x
    obtain ⟨fr', hr⟩ := h1 _ _ _ hA
    obtain ⟨h3, h4⟩ := hb fr' (fl || f) r' t'
    simp only
    cases hB : B r' t' with
    | timeout => simp
    | err e => simp only [reduceCtorEq, false_implies, implies_true, true_and, Out.err.injEq]
               rintro _ rfl; exact hr _ (h4 _ hB)
    | done y =>
      obtain ⟨f', r'', t''⟩ := y
      obtain ⟨fr'', hr'⟩ := h3 _ _ _ hB
      simp only [reduceCtorEq, false_implies, implies_true, and_true]
      intro nf _ _ h
      simp only [Out.done.injEq, Prod.mk.injEq] at h
      obtain ⟨rfl, rfl, rfl⟩ := h
      exact ⟨fr'', by rw [← Bool.or_assoc]; exact hr.trans hr'⟩

/-- Act on the target, keeping the frame, then go on. -/
theorem ImplAt.act_seq {p m q : Nat} {f : T → Except Err T} {B : Sem R T} {fr fr' : Frame}
    (ha : ∀ fl (r : R) t, (∀ t', f t = .ok t' → Reaches ro fo prog ⟨p, fr, fl, r, t⟩ ⟨m, fr', fl, r, t'⟩) ∧
      (∀ e, f t = .error e → Evals ro fo prog ⟨p, fr, fl, r, t⟩ (.err e)))
    (hb : ImplAt ro fo prog m q B fr') : ImplAt ro fo prog p q ((Sem.act f).seq B) fr := by
  intro fl r t
  obtain ⟨h1, h2⟩ := ha fl r t
  simp only [Sem.seq, Sem.act]
  cases hA : f t with
  | error e => simp only [reduceCtorEq, false_implies, implies_true, true_and, Out.err.injEq]
               rintro _ rfl; exact h2 _ hA
  | ok t1 =>
    obtain ⟨h3, h4⟩ := hb fl r t1
    have hr := h1 _ hA
    simp only
    cases hB : B r t1 with
    | timeout => simp
    | err e => simp only [reduceCtorEq, false_implies, implies_true, true_and, Out.err.injEq]
               rintro _ rfl; exact hr _ (h4 _ hB)
    | done y =>
      obtain ⟨f', r'', t''⟩ := y
      obtain ⟨fr'', hr'⟩ := h3 _ _ _ hB
      simp only [reduceCtorEq, false_implies, implies_true, and_true]
      intro nf _ _ h
      simp only [Out.done.injEq, Prod.mk.injEq, Bool.false_or] at h
      obtain ⟨rfl, rfl, rfl⟩ := h
      exact ⟨fr'', hr.trans hr'⟩

/-- The instructions of a block. -/
structure BlockCode (prog : Program) (p q : Nat) : Prop where
  i0 : prog.instrs[p]? = some ⟨.read, opLong⟩
  i1 : prog.instrs[p + 1]? = some ⟨.evalEqual, 0⟩
  i2 : prog.instrs[p + 2]? = some ⟨.condJump, ((q + 5 : Nat) : Int)⟩
  i3 : prog.instrs[p + 3]? = some ⟨.evalGreater, 0⟩
  i4 : prog.instrs[p + 4]? = some ⟨.condJump, ((p + 7 : Nat) : Int)⟩
  i5 : prog.instrs[p + 5]? = some ⟨.read, opUnusedLong⟩
  i6 : prog.instrs[p + 6]? = some ⟨.multLong, -1⟩
  i7 : prog.instrs[p + 7]? = some ⟨.hintSize, opUnusedLong⟩
  i8 : prog.instrs[p + 8]? = some ⟨.pushLoop, 0⟩
  e0 : prog.instrs[q]? = some ⟨.popLoop, 0⟩
  e1 : prog.instrs[q + 1]? = some ⟨.addLong, -1⟩
  e2 : prog.instrs[q + 2]? = some ⟨.evalEqual, 0⟩
  e3 : prog.instrs[q + 3]? = some ⟨.condJump, (p : Int)⟩
  e4 : prog.instrs[q + 4]? = some ⟨.jump, ((p + 8 : Nat) : Int)⟩

/-- One round of the loop. -/
theorem impl_round {p q : Nat} {A : Sem R T} (h : BlockCode prog p q)
    (ha : Impl ro fo prog (p + 9) q A) (fr : Frame) (fl : Bool) (r : R) (t : T) :
    (∀ nf r' t', A.noFlag r t = .done (nf, r', t') →
      Reaches ro fo prog ⟨p + 8, fr, fl, r, t⟩ ⟨q + 1, fr, fl || nf, r', t'⟩) ∧
    (∀ e, A.noFlag r t = .err e → Evals ro fo prog ⟨p + 8, fr, fl, r, t⟩ (.err e)) := by
  obtain ⟨h1, h2⟩ := ha {} false r t
  unfold Sem.noFlag
  cases hA : A r t with
  | timeout => simp
  | err e =>
    simp only [reduceCtorEq, false_implies, implies_true, true_and, Out.err.injEq]
    rintro _ rfl
    exact evals_err_of_call _ _ _ (h2 _ hA) fun n hn => by
      simp only [ev] at hn; simp only [ev, evalInner, h.i8, hn]
  | done y =>
    obtain ⟨f, r1, t1⟩ := y
    obtain ⟨fr', hr⟩ := h1 _ _ _ hA
    simp only [reduceCtorEq, false_implies, implies_true, and_true, Out.done.injEq, Prod.mk.injEq]
    rintro nf r' t' ⟨rfl, rfl, rfl⟩
    rw [Bool.or_false]
    have hsub : Evals ro fo prog ⟨p + 9, {}, false, r, t⟩ (.done ⟨false, q, r1, t1⟩) :=
      hr _ (evals_of_step _ _ _ (by simp) (by simp [ev, evalInner, h.e0]))
    exact reaches_of_call _ _ _ hsub fun n hn => by
      simp only [ev] at hn; simp only [ev, evalInner, h.i8, hn]

theorem bv_sub_one_toNat (c : BitVec 64) (k : Nat) (h : c.toNat = k + 1) :
    (c + BitVec.ofInt 64 (-1)).toNat = k := by
  have : BitVec.ofInt 64 (-1) = BitVec.allOnes 64 := by decide
  have hc := c.isLt
  rw [this, BitVec.toNat_add, BitVec.toNat_allOnes, h]
  omega

theorem bv_toInt_zero_iff (c : BitVec 64) : c.toInt = 0 ↔ c.toNat = 0 := by
  constructor
  · intro h
    have : c = 0 := by apply BitVec.eq_of_toInt_eq; rw [h]; rfl
    rw [this]; rfl
  · intro h
    have : c = 0 := by apply BitVec.eq_of_toNat_eq; rw [h]; rfl
    rw [this]; rfl

/-- The loop over the items of a block, up to the jump back to its head. -/
theorem impl_rep {p q : Nat} {A : Sem R T} (h : BlockCode prog p q)
    (ha : Impl ro fo prog (p + 9) q A) : ∀ (k : Nat) (fr : Frame), fr.long.toNat = k + 1 →
    ImplAt ro fo prog (p + 8) p (Sem.rep A (k + 1)) fr := by
  intro k
  induction k with
  | zero =>
    intro fr hk fl r t
    have hb : ∀ fl (r : R) (t : T), ∃ fr', Reaches ro fo prog ⟨q + 1, fr, fl, r, t⟩ ⟨p, fr', fl, r, t⟩ := by
      intro fl r t
      refine ⟨_, (reaches_addLong h.e1 fr fl r t).trans
        ((reaches_evalEqual h.e2 _ fl r t).trans (reaches_condJump_true h.e3 _ ?_ fl r t))⟩
      simp only [decide_eq_true_eq]
      exact (bv_toInt_zero_iff _).2 (bv_sub_one_toNat _ _ hk)
    obtain ⟨h1, h2⟩ := impl_round h ha fr fl r t
    simp only [Sem.rep, Sem.seq]
    cases hA : A.noFlag r t with
    | timeout => simp
    | err e => simp only [reduceCtorEq, false_implies, implies_true, true_and, Out.err.injEq]
               rintro _ rfl; exact h2 _ hA
    | done x =>
      obtain ⟨f, r', t'⟩ := x
      simp only [Sem.skip, reduceCtorEq, false_implies, implies_true, and_true, Out.done.injEq,
        Prod.mk.injEq, Bool.or_false]
      rintro nf _ _ ⟨rfl, rfl, rfl⟩
      obtain ⟨fr', hr⟩ := hb (fl || f) r' t'
      exact ⟨fr', (h1 _ _ _ hA).trans hr⟩
  | succ k ih =>
    intro fr hk fl r t
    have hk' := bv_sub_one_toNat fr.long (k + 1) hk
    have hb : ∀ fl (r : R) (t : T), Reaches ro fo prog ⟨q + 1, fr, fl, r, t⟩
        ⟨p + 8, { fr with long := fr.long + BitVec.ofInt 64 (-1), cond := false }, fl, r, t⟩ := by
      intro fl r t
      have hc : decide ((fr.long + BitVec.ofInt 64 (-1)).toInt = 0) = false := by
        simp only [decide_eq_false_iff_not, bv_toInt_zero_iff, hk']; omega
      have := reaches_evalEqual (ro := ro) (fo := fo) h.e2
        { fr with long := fr.long + BitVec.ofInt 64 (-1) } fl r t
      simp only [hc] at this
      exact (reaches_addLong h.e1 fr fl r t).trans (this.trans
        ((reaches_condJump_false h.e3 _ rfl fl r t).trans (reaches_jump h.e4 _ fl r t)))
    obtain ⟨h1, h2⟩ := impl_round h ha fr fl r t
    rw [Sem.rep]
    unfold Sem.seq
    cases hA : A.noFlag r t with
    | timeout => simp
    | err e => simp only [reduceCtorEq, false_implies, implies_true, true_and, Out.err.injEq]
               rintro _ rfl; exact h2 _ hA
    | done x =>
      obtain ⟨f, r', t'⟩ := x
      simp only
      obtain ⟨h3, h4⟩ := ih { fr with long := fr.long + BitVec.ofInt 64 (-1), cond := false } hk'
        (fl || f) r' t'
      have hr := (h1 _ _ _ hA).trans (hb (fl || f) r' t')
      cases hB : Sem.rep A (k + 1) r' t' with
      | timeout => simp
      | err e => simp only [reduceCtorEq, false_implies, implies_true, true_and, Out.err.injEq]
                 rintro _ rfl; exact hr _ (h4 _ hB)
      | done y =>
        obtain ⟨f', r'', t''⟩ := y
        obtain ⟨fr'', hr'⟩ := h3 _ _ _ hB
        simp only [reduceCtorEq, false_implies, implies_true, and_true]
        intro nf _ _ h
        simp only [Out.done.injEq, Prod.mk.injEq] at h
        obtain ⟨rfl, rfl, rfl⟩ := h
        exact ⟨fr'', by rw [← Bool.or_assoc]; exact hr.trans hr'⟩

theorem bv_toNat_pos (c : BitVec 64) (h : c ≠ 0) : ∃ k, c.toNat = k + 1 := by
  refine ⟨c.toNat - 1, ?_⟩
  have : c.toNat ≠ 0 := fun h0 => h (BitVec.eq_of_toNat_eq h0)
  omega

theorem bv_neg_ne_zero (c : BitVec 64) (h : c ≠ 0) : -c ≠ 0 := by
  intro h0
  apply h
  have : - -c = -(0 : BitVec 64) := by rw [h0]
  simpa using this

/-- An array or a map. -/
theorem impl_blocks {p q : Nat} {A : Sem R T} (h : BlockCode prog p q)
    (ha : Impl ro fo prog (p + 9) q A) : ∀ n, Impl ro fo prog p (q + 5) (Sem.blocks ro fo A n) := by
  intro n
  induction n with
  | zero =>
    intro fr fl r t
    exact ⟨fun _ _ _ hh => by simp [Sem.blocks] at hh, fun _ hh => by simp [Sem.blocks] at hh⟩
  | succ n ih =>
    have hint : ∀ fr : Frame, fr.long ≠ 0 →
        ImplAt ro fo prog (p + 7) (q + 5) ((Sem.act fun t => fo.hintSize t fr.long).seq
          ((Sem.rep A fr.long.toNat).seq (Sem.blocks ro fo A n))) fr := by
      intro fr hne
      obtain ⟨k, hk⟩ := bv_toNat_pos _ hne
      refine ImplAt.act_seq (m := p + 8) (fr' := fr) ?_ ?_
      · intro fl r t
        refine ⟨fun t' ht => ?_, fun e he => ?_⟩
        · exact reaches_of_step _ _ _ fun n => by simp [ev, evalInner, h.i7, ht]
        · exact evals_of_step _ _ _ (by simp) (by simp [ev, evalInner, h.i7, he])
      · rw [hk]
        exact ImplAt.seq (impl_rep h ha k fr hk) ih
    refine impl_read (upd := fun fr v => { fr with long := v }) h.i0 (fun fr r => rfl)
      fun c fr fl r t => ?_
    revert fl r t
    show ImplAt ro fo prog (p + 1) (q + 5) _ { fr with long := c }
    by_cases hc : c = 0
    · simp only [hc, if_true]
      have hz : ∀ fl (r : R) (t : T), Reaches ro fo prog ⟨p + 1, { fr with long := 0 }, fl, r, t⟩
          ⟨q + 5, { fr with long := 0, cond := true }, fl, r, t⟩ := by
        intro fl r t
        exact (reaches_evalEqual h.i1 { fr with long := 0 } fl r t).trans
          (reaches_condJump_true h.i2 _ rfl fl r t)
      intro fl r t
      refine ⟨fun nf r' t' hh => ?_, fun e hh => by simp [Sem.skip] at hh⟩
      simp only [Sem.skip, Out.done.injEq, Prod.mk.injEq] at hh
      obtain ⟨rfl, rfl, rfl⟩ := hh
      rw [Bool.or_false]
      exact ⟨_, hz fl r t⟩
    · simp only [hc, if_false]
      have hc0 : ¬ c.toInt = 0 := by
        intro h0; exact hc (BitVec.eq_of_toInt_eq (by rw [h0]; rfl))
      have h3 : ∀ fl (r : R) (t : T), Reaches ro fo prog ⟨p + 1, { fr with long := c }, fl, r, t⟩
          ⟨p + 3, { fr with long := c, cond := false }, fl, r, t⟩ := by
        intro fl r t
        have h1 := reaches_evalEqual (ro := ro) (fo := fo) h.i1 { fr with long := c } fl r t
        simp only [hc0, decide_false] at h1
        exact h1.trans (reaches_condJump_false h.i2 _ rfl fl r t)
      by_cases hp : 0 < c.toInt
      · simp only [hp, if_true]
        refine ImplAt.after (m := p + 7) (fr' := { fr with long := c, cond := true }) ?_
          (hint { fr with long := c, cond := true } hc)
        intro fl r t
        have h1 := reaches_evalGreater (ro := ro) (fo := fo) h.i3 { fr with long := c, cond := false } fl r t
        simp only [hp, decide_true] at h1
        exact (h3 fl r t).trans (h1.trans (reaches_condJump_true h.i4 _ rfl fl r t))
      · simp only [hp, if_false]
        refine ImplAt.after (m := p + 5) (fr' := { fr with long := c, cond := false }) ?_ ?_
        · intro fl r t
          have h1 := reaches_evalGreater (ro := ro) (fo := fo) h.i3 { fr with long := c, cond := false } fl r t
          simp only [hp, decide_false] at h1
          exact (h3 fl r t).trans (h1.trans (reaches_condJump_false h.i4 _ rfl fl r t))
        · intro fl r t
          unfold Sem.read
          cases hx : readLong ro r with
          | error e =>
            simp only [reduceCtorEq, false_implies, implies_true, true_and, Out.err.injEq]
            rintro _ rfl
            exact evals_read h.i5 _ _ _ _ (by
              show mapOk _ (readLong ro r) = _
              rw [hx]; rfl)
          | ok x =>
            obtain ⟨a, r1⟩ := x
            have hre := reaches_read (fo := fo) h.i5 { fr with long := c, cond := false } fl r t
              (fr' := { fr with long := c, cond := false }) (r' := r1) (by
                show mapOk _ (readLong ro r) = _
                rw [hx]; rfl)
            have hmul : c * BitVec.ofInt 64 (-1) = -c := by
              have : BitVec.ofInt 64 (-1) = -1#64 := by decide
              rw [this, BitVec.mul_neg, BitVec.mul_one]
            have hm := reaches_multLong (ro := ro) (fo := fo) h.i6 { fr with long := c, cond := false } fl r1 t
            simp only [hmul] at hm
            obtain ⟨g1, g2⟩ := hint { fr with long := -c, cond := false } (bv_neg_ne_zero c hc) fl r1 t
            have hre2 := hre.trans hm
            exact ⟨fun nf r' t' hh => (g1 nf r' t' hh).imp fun _ hz => hre2.trans hz,
              fun e he => hre2 _ (g2 e he)⟩

end Verif
