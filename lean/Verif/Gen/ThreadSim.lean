import Verif.Gen.Threads
/-
A call whose steps are interleaved with those of others: what it does to the objects that it has made.
-/
namespace Verif
set_option linter.unusedVariables false

/-- Others have changed memory from `h` to `h'`, but not the objects in `M`. -/
structure Others (M : Nat → Prop) (h h' : Mem) : Prop where
  grows : h.length ≤ h'.length
  same : ∀ a, M a → h'[a]? = h[a]?

theorem Others.refl {M : Nat → Prop} {h : Mem} : Others M h h := ⟨Nat.le_refl _, fun _ _ => rfl⟩

theorem Others.trans {M : Nat → Prop} {h h1 h2 : Mem} (a : Others M h h1) (b : Others M h1 h2) : Others M h h2 :=
  ⟨Nat.le_trans a.grows b.grows, fun x hx => (b.same x hx).trans (a.same x hx)⟩

/-- The call has made the objects in `M`, memory is `h`. Whatever others do between its steps without touching those, the call
changes only them; at the end `Q` holds of the result, memory, and what the call has made; and `E` or `T` if the call
fails or has no more fuel. -/
def Todo.Safe {A : Type} (Q : A → Mem → (Nat → Prop) → Prop) (E : Err → Prop) (T : Prop) : Todo MObj A → Mem → (Nat → Prop) → Prop
  | .ret (.done a), h, M => Q a h M
  | .ret (.err e), _, _ => E e
  | .ret .timeout, _, _ => T
  | .op f k, h, M => ∀ h1, Others M h h1 → (∀ e, f h1 = .error e → E e) ∧
      ∀ x h2, f h1 = .ok (x, h2) → h1.length ≤ h2.length ∧ (∀ a, a < h1.length → ¬ M a → h2[a]? = h1[a]?) ∧
        (k x).Safe Q E T h2 (Grown M h1 h2)

theorem Todo.Safe.mono {A : Type} {Q Q' : A → Mem → (Nat → Prop) → Prop} {E E' : Err → Prop} {T T' : Prop} (hQ : ∀ a h M, Q a h M → Q' a h M)
    (hE : ∀ e, E e → E' e) (hT : T → T') : ∀ (a : Todo MObj A) (h : Mem) (M : Nat → Prop), a.Safe Q E T h M → a.Safe Q' E' T' h M
  | .ret (.done a), h, M, hs => hQ a h M hs
  | .ret (.err e), _, _, hs => hE e hs
  | .ret .timeout, _, _, hs => hT hs
  | .op f k, h, M, hs => fun h1 ho => ⟨fun e he => hE e ((hs h1 ho).1 e he), fun x h2 hf =>
      have := (hs h1 ho).2 x h2 hf
      ⟨this.1, this.2.1, Todo.Safe.mono hQ hE hT (k x) _ _ this.2.2⟩⟩

theorem Todo.Safe.bind {A B : Type} {Q : A → Mem → (Nat → Prop) → Prop} {Q' : B → Mem → (Nat → Prop) → Prop} {E : Err → Prop} {T : Prop}
    {k : A → Todo MObj B} (hk : ∀ a h M, Q a h M → (k a).Safe Q' E T h M) :
    ∀ (a : Todo MObj A) (h : Mem) (M : Nat → Prop), a.Safe Q E T h M → (a.bind k).Safe Q' E T h M
  | .ret (.done a), h, M, hs => hk a h M hs
  | .ret (.err e), _, _, hs => hs
  | .ret .timeout, _, _, hs => hs
  | .op f g, h, M, hs => fun h1 ho => ⟨(hs h1 ho).1, fun x h2 hf =>
      have := (hs h1 ho).2 x h2 hf
      ⟨this.1, this.2.1, Todo.Safe.bind hk (g x) _ _ this.2.2⟩⟩

theorem Todo.Safe.others {A : Type} {Q : A → Mem → (Nat → Prop) → Prop} {E : Err → Prop} {T : Prop}
    (hQ : ∀ a h M h', Q a h M → Others M h h' → Q a h' M) : ∀ {a : Todo MObj A} {h h' : Mem} {M : Nat → Prop}, a.Safe Q E T h M → Others M h h' → a.Safe Q E T h' M
  | .ret (.done a), h, h', M, hs, ho => hQ a h M h' hs ho
  | .ret (.err e), _, _, _, hs, _ => hs
  | .ret .timeout, _, _, _, hs, _ => hs
  | .op f k, h, h', M, hs, ho => fun h1 ho1 => hs h1 (ho.trans ho1)

/-- The call owns what the target is made of. -/
structure Mine (M : Nat → Prop) (h : Mem) (P : MTgt) (t : Tgt) (fp : List Nat) : Prop where
  own : Own h P t fp
  here : ∀ x, M x → x < h.length
  place : M P.place.id
  objs : ∀ x ∈ fp, M x

theorem Mine.others {M : Nat → Prop} {h h' : Mem} {P : MTgt} {t : Tgt} {fp : List Nat} (hm : Mine M h P t fp) (ho : Others M h h') :
    Mine M h' P t fp :=
  ⟨hm.own.frame (ho.same _ hm.place) (fun a ha => ho.same a (hm.objs a ha)), fun x hx => Nat.lt_of_lt_of_le (hm.here x hx) ho.grows,
    hm.place, hm.objs⟩

theorem ChgM.others {M : Nat → Prop} {h h' : Mem} {P : MTgt} {t : Tgt} {fp : List Nat} (hm : Mine M h P t fp) (ho : Others M h h') :
    ChgM M P.place fp h h' := by
  obtain ⟨v, hr⟩ := hm.own.owns.read
  obtain ⟨o, h1, h2⟩ := Mem.read_of hr
  exact ⟨ho.grows, fun a ha _ _ => ho.same a ha, o, v, v, h1, h2, by rw [Var.put_at h2, ho.same _ hm.place, h1]⟩

/-- The call has gone on from `h`, where it owned `M`, to `h2`, where it owns `M2`; the target `P` stands for `t`. -/
structure Post (h : Mem) (P : MTgt) (fp : List Nat) (M : Nat → Prop) (t : Tgt) (h2 : Mem) (M2 : Nat → Prop) (fp2 : List Nat) : Prop where
  mine : Mine M2 h2 P t fp2
  chg : ChgM M P.place fp h h2
  new : FromM M fp fp2
  more : ∀ x, M x → M2 x

theorem Post.refl {h : Mem} {P : MTgt} {t : Tgt} {fp : List Nat} {M : Nat → Prop} (hm : Mine M h P t fp) : Post h P fp M t h M fp :=
  ⟨hm, ChgM.others hm .refl, .refl, fun _ hx => hx⟩

theorem Post.trans {h h1 h2 : Mem} {P : MTgt} {t1 t2 : Tgt} {fp fp1 fp2 : List Nat} {M M1 M2 : Nat → Prop} (a : Post h P fp M t1 h1 M1 fp1)
    (b : Post h1 P fp1 M1 t2 h2 M2 fp2) : Post h P fp M t2 h2 M2 fp2 :=
  ⟨b.mine, a.chg.trans a.more b.chg a.new, FromM.trans a.more a.new b.new, fun x hx => b.more x (a.more x hx)⟩

theorem grown_lt {M : Nat → Prop} {h h1 : Mem} (hM : ∀ x, M x → x < h.length) (hl : h.length ≤ h1.length) : ∀ x, Grown M h h1 x → x < h1.length :=
  fun x hx => hx.elim (fun hx => Nat.lt_of_lt_of_le (hM x hx) hl) (·.2)

/-- A method call. -/
theorem method_safe {f : MState → Except Err MState} {A : Except Err Tgt} {E : Err → Prop} {T : Prop} {h : Mem} {P : MTgt} {t : Tgt}
    {fp : List Nat} {M : Nat → Prop} (hm : Mine M h P t fp) (hf : ∀ h', Own h' P t fp → Follows h' P fp A (f (P, h')))
    (hE : ∀ e, A = .error e → E e) :
    (methodA f P).Safe (fun P' h2 M2 => P' = P ∧ ∃ t' fp', A = .ok t' ∧ Post h P fp M t' h2 M2 fp') E T h M := by
  intro h1 ho
  have hm1 := hm.others ho
  have hs := hf h1 hm1.own
  cases hb : f (P, h1) with
  | error e =>
    refine ⟨fun e' he => ?_, fun x h2 hx => nomatch (hb.symm.trans hx)⟩
    cases hb.symm.trans he
    rw [hb] at hs
    cases A with
    | error e' => exact hE e (by rw [show e' = e from hs])
    | ok t => exact False.elim hs
  | ok s =>
    refine And.intro (fun e he => nomatch (hb.symm.trans he)) (fun x h2 hx => ?_)
    cases hb.symm.trans hx
    rw [hb] at hs
    cases A with
    | error e' => exact False.elim hs
    | ok t' =>
      obtain ⟨rfl, fp', e1, e2, e3⟩ := hs
      have hmore : ∀ x, M x → Grown M h1 h2 x := fun x hx => .inl hx
      refine ⟨e2.grows, fun a ha hn => e2.same a ha (fun hm' => hn (hm.objs a hm')) (fun he => hn (he ▸ hm.place)), rfl, t', fp', rfl, ?_⟩
      refine Post.trans (Post.mk hm1 (ChgM.others hm ho) .refl (fun _ hx => hx)) ⟨⟨e1, grown_lt hm1.here e2.grows, .inl hm.place, ?_⟩, e2.toM hm1.here,
        e3.toM hm1.here, hmore⟩
      intro x hx
      rcases e3 x hx with h' | h'
      · exact .inl (hm.objs x h')
      · exact .inr ⟨h', e1.lt x hx⟩

/-- A method call that returns a target. -/
theorem sub_safe {f : MState → Except Err MState} {put : Tgt → Tgt} {A : Except Err Tgt} {E : Err → Prop} {T : Prop} {h : Mem} {P : MTgt} {t : Tgt}
    {fp : List Nat} {M : Nat → Prop} (hm : Mine M h P t fp) (hf : ∀ h', Own h' P t fp → SubSim h' P fp put A (f (P, h')))
    (hE : ∀ e, A = .error e → E e) :
    (methodA f P).Safe (fun S h1 M1 => ∃ s f1, A = .ok s ∧ Mine M1 h1 S s f1 ∧
      ∀ t2 h2 M2 f2, Post h1 S f1 M1 t2 h2 M2 f2 → ∃ fp2, Post h P fp M (put t2) h2 M2 fp2) E T h M := by
  intro h1 ho
  have hm1 := hm.others ho
  have hs := hf h1 hm1.own
  cases hb : f (P, h1) with
  | error e =>
    refine ⟨fun e' he => ?_, fun x h2 hx => nomatch (hb.symm.trans hx)⟩
    cases hb.symm.trans he
    rw [hb] at hs
    cases A with
    | error e' => exact hE e (by rw [show e' = e from hs])
    | ok t => exact False.elim hs
  | ok s =>
    refine And.intro (fun e he => nomatch (hb.symm.trans he)) (fun x h2 hx => ?_)
    cases hb.symm.trans hx
    rw [hb] at hs
    cases A with
    | error e' => exact False.elim hs
    | ok s =>
      obtain ⟨f1, e1, g1, g2, g3, g4, e2⟩ := hs
      refine ⟨g1, fun a ha hn => g4 a ha (fun hm' => hn (hm.objs a hm')) (fun he => hn (he ▸ hm.place)), s, f1, rfl,
        ⟨e1, grown_lt hm1.here g1, ?_, ?_⟩, ?_⟩
      · rcases g2 with h' | h' | h'
        · exact .inl (h' ▸ hm.place)
        · exact .inl (hm.objs _ h')
        · obtain ⟨v, hr⟩ := e1.owns.read
          exact .inr ⟨h', Mem.read_lt hr⟩
      · intro x hx
        rcases g3 x hx with h' | h'
        · exact .inl (hm.objs x h')
        · exact .inr ⟨h', e1.lt x hx⟩
      · intro t2 h3 M3 f3 hp
        obtain ⟨fp', c1, c2, c3, c4⟩ := e2 M hm1.here hm.place hm.objs h3 t2 f3 hp.chg hp.new hp.mine.own
        refine ⟨fp', Post.trans (Post.mk hm1 (ChgM.others hm ho) .refl (fun _ hx => hx))
          ⟨⟨c1, hp.mine.here, hp.more _ (.inl hm.place), fun x hx => ?_⟩, c2, c3, fun x hx => hp.more x (.inl hx)⟩⟩
        rcases c4 x hx with h' | h'
        · exact hp.mine.objs x h'
        · exact hp.more x h'

/-- The evaluation with targets as states ends as `a` says. -/
def EndsIn {R : Type} (a : Out (Ret R Tgt)) (h : Mem) (P : MTgt) (fp : List Nat) (M : Nat → Prop) (b : Ret R MTgt) (h2 : Mem) (M2 : Nat → Prop) : Prop :=
  ∃ x fp2, a = .done x ∧ x.nil = b.nil ∧ x.pc = b.pc ∧ x.r = b.r ∧ b.t = P ∧ Post h P fp M x.t h2 M2 fp2

def EndsAs {R : Type} (a : Out (Ret R Tgt)) (h : Mem) (P : MTgt) (fp : List Nat) (M : Nat → Prop) (b : Todo MObj (Ret R MTgt)) (h1 : Mem) (M1 : Nat → Prop) : Prop :=
  b.Safe (EndsIn a h P fp M) (fun e => a = .err e) (a = .timeout) h1 M1

theorem EndsAs.back {R : Type} {a : Out (Ret R Tgt)} {h h1 : Mem} {P : MTgt} {t : Tgt} {fp fp1 : List Nat} {M M1 : Nat → Prop} {b : Todo MObj (Ret R MTgt)}
    (hp : Post h P fp M t h1 M1 fp1) (hs : EndsAs a h1 P fp1 M1 b h1 M1) : EndsAs a h P fp M b h1 M1 := by
  refine hs.mono ?_ (fun _ h => h) id
  rintro b h2 M2 ⟨x, fp2, e1, e2, e3, e4, e5, e6⟩
  exact ⟨x, fp2, e1, e2, e3, e4, e5, hp.trans e6⟩

/-- A method call, and what comes after it. -/
theorem method_then {R : Type} {f : MState → Except Err MState} {A : Except Err Tgt} {X : Out (Ret R Tgt)} {h : Mem} {P : MTgt} {t : Tgt}
    {fp : List Nat} {M : Nat → Prop} (k : Tgt → Out (Ret R Tgt)) (k' : MTgt → Todo MObj (Ret R MTgt)) (hm : Mine M h P t fp)
    (hf : ∀ h', Own h' P t fp → Follows h' P fp A (f (P, h')))
    (hXe : ∀ e, A = .error e → X = .err e) (hX : ∀ t, A = .ok t → X = k t)
    (hk : ∀ t' h' fp' M', Mine M' h' P t' fp' → EndsAs (k t') h' P fp' M' (k' P) h' M') : EndsAs X h P fp M ((methodA f P).bind k') h M := by
  refine Todo.Safe.bind ?_ _ _ _ (method_safe hm hf hXe)
  rintro P' h' M' ⟨rfl, t', fp', hA, hp⟩
  rw [hX t' hA]
  exact (hk t' h' fp' M' hp.mine).back hp

/-- An activation of `evalInner`, and what comes after it. -/
theorem eval_then {R : Type} {E X : Out (Ret R Tgt)} {b : Todo MObj (Ret R MTgt)} {h : Mem} {P : MTgt} {t : Tgt} {fp : List Nat} {M : Nat → Prop}
    (k : Ret R Tgt → Out (Ret R Tgt)) (k' : Ret R MTgt → Todo MObj (Ret R MTgt)) (hm : Mine M h P t fp) (hE : EndsAs E h P fp M b h M)
    (hXt : E = .timeout → X = .timeout) (hXe : ∀ e, E = .err e → X = .err e) (hX : ∀ a, E = .done a → X = k a)
    (hk : ∀ (a : Ret R MTgt) t' h' fp' M', Mine M' h' P t' fp' → EndsAs (k ⟨a.nil, a.pc, a.r, t'⟩) h' P fp' M' (k' ⟨a.nil, a.pc, a.r, P⟩) h' M') :
    EndsAs X h P fp M (b.bind k') h M := by
  refine Todo.Safe.bind ?_ _ _ _ (hE.mono (fun _ _ _ h => h) (fun e he => hXe e he) hXt)
  rintro ⟨bn, bp, br, bt⟩ h' M' ⟨⟨xn, xp, xr, xt⟩, fp', hx, e1, e2, e3, e4, hp⟩
  cases e1; cases e2; cases e3; cases e4
  rw [hX _ hx]
  exact (hk ⟨_, _, _, bt⟩ _ h' fp' M' hp.mine).back hp

/-- A method call that returns a target, an activation for it, and what comes after. -/
theorem sub_then {R : Type} {f : MState → Except Err MState} {put : Tgt → Tgt} {A : Except Err Tgt} {X : Out (Ret R Tgt)} {h : Mem} {P : MTgt} {t : Tgt}
    {fp : List Nat} {M : Nat → Prop} (E : Tgt → Out (Ret R Tgt)) (E' : MTgt → Todo MObj (Ret R MTgt))
    (k : Ret R Tgt → Out (Ret R Tgt)) (k' : Ret R MTgt → Todo MObj (Ret R MTgt)) (hm : Mine M h P t fp)
    (hf : ∀ h', Own h' P t fp → SubSim h' P fp put A (f (P, h')))
    (hXe : ∀ e, A = .error e → X = .err e)
    (hX : ∀ s, A = .ok s → (E s = .timeout → X = .timeout) ∧ (∀ e, E s = .err e → X = .err e) ∧ ∀ a, E s = .done a → X = k a)
    (hE : ∀ s S h1 f1 M1, Mine M1 h1 S s f1 → EndsAs (E s) h1 S f1 M1 (E' S) h1 M1)
    (hk : ∀ (a : Ret R Tgt) (b : Ret R MTgt) h' fp' M', a.nil = b.nil → a.pc = b.pc → a.r = b.r → Mine M' h' P (put a.t) fp' → EndsAs (k a) h' P fp' M' (k' b) h' M') :
    EndsAs X h P fp M ((methodA f P).bind fun S => (E' S).bind k') h M := by
  refine Todo.Safe.bind ?_ _ _ _ (sub_safe hm hf hXe)
  rintro S h1 M1 ⟨s, f1, hA, hm1, hc⟩
  obtain ⟨x1, x2, x3⟩ := hX s hA
  refine Todo.Safe.bind ?_ _ _ _ ((hE s S h1 f1 M1 hm1).mono (fun _ _ _ h => h) x2 x1)
  rintro b h2 M2 ⟨a, f2, ha, e1, e2, e3, e4, hp⟩
  obtain ⟨fp2, hp2⟩ := hc _ _ _ _ hp
  rw [x3 a ha]
  exact (hk a b h2 fp2 M2 e1 e2 e3 hp2.mine).back hp2

/-- `if setToNil { target.NullField(i) }`, and what comes after it. -/
theorem nullIf_then {R : Type} {re : Env} {lim : Nat} {dv : Field → Val} {grow : Nat → Nat} {X : Out (Ret R Tgt)} {h : Mem} {P : MTgt} {t : Tgt}
    {fp : List Nat} {M : Nat → Prop} {nil : Bool} {i : Int} (k : Tgt → Out (Ret R Tgt)) (k' : MTgt → Todo MObj (Ret R MTgt)) (hm : Mine M h P t fp)
    (hXe : ∀ e, nullIf (genOps re lim dv) nil t i = .error e → X = .err e) (hX : ∀ t', nullIf (genOps re lim dv) nil t i = .ok t' → X = k t')
    (hk : ∀ t' h' fp' M', Mine M' h' P t' fp' → EndsAs (k t') h' P fp' M' (k' P) h' M') :
    EndsAs X h P fp M ((nullIfA (memOps re lim dv grow) nil P i).bind k') h M := by
  cases nil with
  | true =>
    exact method_then (f := fun s => (memOps re lim dv grow).nullField s i) (A := genNullField t i) k k' hm
      (fun h' ho => nullField_sim ho i) hXe hX hk
  | false =>
    rw [hX t rfl]
    exact hk t h fp M hm

/-- The evaluation of any program: with the steps of others between its own it ends as it does alone, with targets as states. -/
theorem evalA_safe {R : Type} {ro : ReaderOps R} {re : Env} {lim : Nat} {dv : Field → Val} {grow : Nat → Nat} {p : Program} :
    ∀ (n pc : Nat) (fr : Frame) (fl : Bool) (r : R) (P : MTgt) (t : Tgt) (h : Mem) (fp : List Nat) (M : Nat → Prop), Mine M h P t fp →
      EndsAs (evalInner ro (genOps re lim dv) p n pc fr fl r t) h P fp M (evalA ro (memOps re lim dv grow) p n pc fr fl r P) h M
  | 0, _, _, _, _, _, _, _, _, _, _ => rfl
  | n + 1, pc, fr, fl, r, P, t, h, fp, M, hm => by
    have ih := @evalA_safe R ro re lim dv grow p n
    have hdone : ∀ nil pc (r : R), EndsAs (.done ⟨nil, pc, r, t⟩) h P fp M (.ret (.done ⟨nil, pc, r, P⟩)) h M := fun nil pc r =>
      ⟨_, fp, rfl, rfl, rfl, rfl, rfl, .refl hm⟩
    unfold evalInner evalA
    cases hi : p.instrs[pc]? with
    | none => exact hdone _ _ _
    | some i =>
      obtain ⟨op, arg⟩ := i
      cases op with
      | read =>
        simp only
        cases doRead ro arg fr r with
        | error e => exact rfl
        | ok x => exact ih _ _ _ _ _ _ _ _ _ hm
      | set =>
        simp only
        exact method_then (A := doSet (genOps re lim dv) arg fr t) (fun t => evalInner ro (genOps re lim dv) p n (pc + 1) fr fl r t) _ hm
          (fun h' ho => doSet_sim ho arg fr) (fun e he => by simp only [he]) (fun t he => by simp only [he])
          (fun t' h' fp' M' hm' => ih _ _ _ _ _ _ _ _ _ hm')
      | setDefault =>
        simp only
        exact method_then (A := (genOps re lim dv).setDefault t arg) (fun t => evalInner ro (genOps re lim dv) p n (pc + 1) fr fl r t) _ hm
          (fun h' ho => setDefault_sim ho arg) (fun e he => by simp only [he]) (fun t he => by simp only [he])
          (fun t' h' fp' M' hm' => ih _ _ _ _ _ _ _ _ _ hm')
      | enter =>
        simp only
        refine sub_then (A := (genOps re lim dv).get t arg) (put := fun s => genPut t arg s)
          (fun s => evalInner ro (genOps re lim dv) p n (pc + 1) {} false r s) (fun S => evalA ro (memOps re lim dv grow) p n (pc + 1) {} false r S)
          (fun ret => match nullIf (genOps re lim dv) ret.nil ((genOps re lim dv).put t arg ret.t) arg with
            | .error e => .err e
            | .ok t' => evalInner ro (genOps re lim dv) p n (ret.pc + 1) fr fl ret.r t') _ hm (fun h' ho => get_sim ho arg)
          (fun e he => by simp only [he])
          (fun s he => ⟨fun h2 => by simp only [he, h2], fun e h2 => by simp only [he, h2], fun a h2 => by simp only [he, h2]; generalize nullIf _ _ _ _ = z; cases z <;> rfl⟩)
          (fun s S h1 f1 M1 hm1 => ih _ _ _ _ _ _ _ _ _ hm1) ?_
        rintro ⟨an, ap, ar, at'⟩ ⟨bn, bp, br, bt⟩ h' fp' M' rfl rfl rfl hm'
        refine nullIf_then (re := re) (lim := lim) (dv := dv) (fun t' => evalInner ro (genOps re lim dv) p n (ap + 1) fr fl ar t') _ hm'
          (fun e he => ?_) (fun t1 he => ?_) (fun t' h' fp' M' hm' => ih _ _ _ _ _ _ _ _ _ hm')
        · show (match nullIf (genOps re lim dv) an (genPut t arg at') arg with | .error e => _ | .ok t' => _) = _
          rw [he]
        · show (match nullIf (genOps re lim dv) an (genPut t arg at') arg with | .error e => _ | .ok t' => _) = _
          rw [he]
      | exit =>
        simp only
        exact method_then (A := (genOps re lim dv).finalize t) (fun t => .done ⟨fl, pc, r, t⟩) _ hm
          (fun h' ho => finalize_sim ho) (fun e he => by simp only [he]) (fun t he => by simp only [he])
          (fun t' h' fp' M' hm' => ⟨_, fp', rfl, rfl, rfl, rfl, rfl, .refl hm'⟩)
      | setExitNull => exact ih _ _ _ _ _ _ _ _ _ hm
      | appendArray =>
        simp only
        refine sub_then (A := (genOps re lim dv).appendArray t) (put := fun s => genPutArray t s)
          (fun s => evalInner ro (genOps re lim dv) p n (pc + 1) {} false r s) (fun S => evalA ro (memOps re lim dv grow) p n (pc + 1) {} false r S)
          (fun ret => match nullIf (genOps re lim dv) ret.nil ((genOps re lim dv).putArray t ret.t) (-1) with
            | .error e => .err e
            | .ok t' => evalInner ro (genOps re lim dv) p n (ret.pc + 1) fr fl ret.r t') _ hm (fun h' ho => appendArray_sim ho)
          (fun e he => by simp only [he])
          (fun s he => ⟨fun h2 => by simp only [he, h2], fun e h2 => by simp only [he, h2], fun a h2 => by simp only [he, h2]; generalize nullIf _ _ _ _ = z; cases z <;> rfl⟩)
          (fun s S h1 f1 M1 hm1 => ih _ _ _ _ _ _ _ _ _ hm1) ?_
        rintro ⟨an, ap, ar, at'⟩ ⟨bn, bp, br, bt⟩ h' fp' M' rfl rfl rfl hm'
        refine nullIf_then (re := re) (lim := lim) (dv := dv) (fun t' => evalInner ro (genOps re lim dv) p n (ap + 1) fr fl ar t') _ hm'
          (fun e he => ?_) (fun t1 he => ?_) (fun t' h' fp' M' hm' => ih _ _ _ _ _ _ _ _ _ hm')
        · show (match nullIf (genOps re lim dv) an (genPutArray t at') (-1) with | .error e => _ | .ok t' => _) = _
          rw [he]
        · show (match nullIf (genOps re lim dv) an (genPutArray t at') (-1) with | .error e => _ | .ok t' => _) = _
          rw [he]
      | appendMap =>
        simp only
        refine sub_then (A := (genOps re lim dv).appendMap t fr.string) (put := fun s => genPutMap t fr.string s)
          (fun s => evalInner ro (genOps re lim dv) p n (pc + 1) {} false r s) (fun S => evalA ro (memOps re lim dv grow) p n (pc + 1) {} false r S)
          (fun ret => match nullIf (genOps re lim dv) ret.nil ((genOps re lim dv).putMap t fr.string ret.t) (-1) with
            | .error e => .err e
            | .ok t' => evalInner ro (genOps re lim dv) p n (ret.pc + 1) fr fl ret.r t') _ hm (fun h' ho => appendMap_sim ho fr.string)
          (fun e he => by simp only [he])
          (fun s he => ⟨fun h2 => by simp only [he, h2], fun e h2 => by simp only [he, h2], fun a h2 => by simp only [he, h2]; generalize nullIf _ _ _ _ = z; cases z <;> rfl⟩)
          (fun s S h1 f1 M1 hm1 => ih _ _ _ _ _ _ _ _ _ hm1) ?_
        rintro ⟨an, ap, ar, at'⟩ ⟨bn, bp, br, bt⟩ h' fp' M' rfl rfl rfl hm'
        refine nullIf_then (re := re) (lim := lim) (dv := dv) (fun t' => evalInner ro (genOps re lim dv) p n (ap + 1) fr fl ar t') _ hm'
          (fun e he => ?_) (fun t1 he => ?_) (fun t' h' fp' M' hm' => ih _ _ _ _ _ _ _ _ _ hm')
        · show (match nullIf (genOps re lim dv) an (genPutMap t fr.string at') (-1) with | .error e => _ | .ok t' => _) = _
          rw [he]
        · show (match nullIf (genOps re lim dv) an (genPutMap t fr.string at') (-1) with | .error e => _ | .ok t' => _) = _
          rw [he]
      | call =>
        simp only
        by_cases hneg : arg < 0
        · rw [if_pos hneg, if_pos hneg]; exact rfl
        · rw [if_neg hneg, if_neg hneg]
          exact eval_then (fun ret => evalInner ro (genOps re lim dv) p n (pc + 1) fr fl ret.r ret.t) _ hm
            (ih (arg.toNat) {} false r _ _ _ _ _ hm) (fun he => by simp only [he]) (fun e he => by simp only [he]) (fun a he => by simp only [he])
            (fun a t' h' fp' M' hm' => ih _ _ _ _ _ _ _ _ _ hm')
      | ret => exact hdone _ _ _
      | jump =>
        simp only
        by_cases hneg : arg < 0
        · rw [if_pos hneg, if_pos hneg]; exact rfl
        · rw [if_neg hneg, if_neg hneg]; exact ih _ _ _ _ _ _ _ _ _ hm
      | evalGreater => exact ih _ _ _ _ _ _ _ _ _ hm
      | evalEqual => exact ih _ _ _ _ _ _ _ _ _ hm
      | condJump =>
        simp only
        by_cases hc : fr.cond = true
        · rw [if_pos hc, if_pos hc]
          by_cases hneg : arg < 0
          · rw [if_pos hneg, if_pos hneg]; exact rfl
          · rw [if_neg hneg, if_neg hneg]; exact ih _ _ _ _ _ _ _ _ _ hm
        · rw [if_neg hc, if_neg hc]; exact ih _ _ _ _ _ _ _ _ _ hm
      | addLong => exact ih _ _ _ _ _ _ _ _ _ hm
      | setLong => exact ih _ _ _ _ _ _ _ _ _ hm
      | setInt => exact ih _ _ _ _ _ _ _ _ _ hm
      | multLong => exact ih _ _ _ _ _ _ _ _ _ hm
      | hintSize =>
        simp only
        exact method_then (A := (genOps re lim dv).hintSize t fr.long) (fun t => evalInner ro (genOps re lim dv) p n (pc + 1) fr fl r t) _ hm
          (fun h' ho => hintSize_sim ho fr.long) (fun e he => by simp only [he]) (fun t he => by simp only [he])
          (fun t' h' fp' M' hm' => ih _ _ _ _ _ _ _ _ _ hm')
      | pushLoop =>
        simp only
        exact eval_then (fun ret => evalInner ro (genOps re lim dv) p n (ret.pc + 1) fr fl ret.r ret.t) _ hm
          (ih (pc + 1) {} false r _ _ _ _ _ hm) (fun he => by simp only [he]) (fun e he => by simp only [he]) (fun a he => by simp only [he])
          (fun a t' h' fp' M' hm' => ih _ _ _ _ _ _ _ _ _ hm')
      | popLoop => exact hdone _ _ _
      | halt =>
        simp only
        by_cases h0 : arg = 0
        · rw [if_pos h0, if_pos h0]; exact hdone _ _ _
        · rw [if_neg h0, if_neg h0]
          by_cases hneg : arg < 0
          · rw [if_pos hneg, if_pos hneg]; exact rfl
          · rw [if_neg hneg, if_neg hneg]
            cases p.errors[arg.toNat - 1]? with
            | none => exact rfl
            | some m => exact rfl
      | nullField =>
        simp only
        exact method_then (A := (genOps re lim dv).nullField t arg) (fun t => evalInner ro (genOps re lim dv) p n (pc + 1) fr fl r t) _ hm
          (fun h' ho => nullField_sim ho arg) (fun e he => by simp only [he]) (fun t he => by simp only [he])
          (fun t' h' fp' M' hm' => ih _ _ _ _ _ _ _ _ _ hm')

/-- What a call returns: what is left of the input, and a variable that shows what the target of the evaluation with targets as
states holds, with objects that the call has made. -/
def Returns {R : Type} (a : Out (R × Tgt)) (b : R × Var) (h : Mem) (M : Nat → Prop) : Prop :=
  ∃ t fp, a = .done (b.1, t) ∧ SlotShows h t.val b.2 fp ∧ fp.Nodup ∧ ∀ x ∈ fp, M x

theorem Returns.others {R : Type} {a : Out (R × Tgt)} (b : R × Var) (h : Mem) (M : Nat → Prop) (h' : Mem) (hr : Returns a b h M) (ho : Others M h h') :
    Returns a b h' M := by
  obtain ⟨t, fp, e1, e2, e3, e4⟩ := hr
  exact ⟨t, fp, e1, e2.frame (fun x hx => ho.same x (e4 x hx)), e3, e4⟩

/-- A call, with the steps of others between its own. -/
theorem callA_safe {R : Type} {σ : Setting R} {grow : Nat → Nat} {r : Schema} {prog : Program} {n : Nat} {rd : R} {a : Out (R × Tgt)}
    (ha : evalProg σ.ro (genOps r.env σ.lim σ.dv) prog n rd (.new r.env r.root none) = a) (h : Mem) :
    (callA σ grow r prog n rd).Safe (Returns a) (fun e => a = .err e) (a = .timeout) h (fun _ => False) := by
  intro h1 ho
  cases hn : memNew r.env r.root h1 with
  | mk v0 h0 =>
    obtain ⟨l, f, rfl, e1, e2, e3⟩ := new_shows hn
    have hq : h1.length + l.length ∉ f := fun hm => by
      have := (e3 _ hm).2
      simp at this
    have hns : NewShows r.env ((h1 ++ l) ++ [.var v0]) none v0 f r.root := e1.frame (fun a ha => Mem.get_append (e3 a ha).2)
    have hr : Mem.read ((h1 ++ l) ++ [.var v0]) ⟨(h1 ++ l).length, []⟩ = some v0 := by
      rw [Mem.read_eq (p := ⟨(h1 ++ l).length, []⟩) Mem.get_new]
      rfl
    obtain ⟨S, h2, f1, fq, t1, t2, t3, t4, t5⟩ := target_sim hns hr (show (h1 ++ l).length ∉ f by simpa using hq) e2
    have hnew : newA r.env r.root h1 = .ok ((S, ⟨(h1 ++ l).length, []⟩), h2) := by
      simp only [newA, hn, t1]
    have hlen : h1.length ≤ ((h1 ++ l) ++ [MObj.var v0]).length := by simp
    have hgr : h1.length ≤ h2.length := Nat.le_trans hlen t4.grows
    refine And.intro (fun e he => nomatch (hnew.symm.trans he)) (fun x h2' hx => ?_)
    cases hnew.symm.trans hx
    refine ⟨hgr, ?_, ?_⟩
    · intro x hx _
      have hx1 : x < (h1 ++ l).length := by simp; omega
      rw [t4.same x (Nat.lt_of_lt_of_le hx hlen) (fun hm => by have := (e3 x hm).1; omega) (Nat.ne_of_lt hx1),
        Mem.get_append hx1, Mem.get_append hx]
    · have hqlt : (h1 ++ l).length < h2.length := Nat.lt_of_lt_of_le (by simp) t4.grows
      have hMq : Grown (fun _ => False) h1 h2 (h1 ++ l).length := .inr ⟨by simp, hqlt⟩
      have hfq : ∀ x ∈ fq, Grown (fun _ => False) h1 h2 x := fun x hx => by
        refine .inr ⟨?_, t3.lt t2 x hx⟩
        rcases t5 x hx with h' | h'
        · exact (e3 x h').1
        · exact Nat.le_trans hlen h'
      have hmine : Mine (Grown (fun _ => False) h1 h2) h2 S (.new r.env r.root none) f1 := by
        refine ⟨t2, fun x hx => hx.elim (fun h => h.elim) (·.2), ?_, ?_⟩
        · rcases t3 with ⟨hp, _⟩ | ⟨a, ts, rfl, _, _, _, rfl⟩
          · rw [hp]; exact hMq
          · exact hfq a (by simp)
        · rcases t3 with ⟨_, rfl⟩ | ⟨a, ts, rfl, _, _, _, rfl⟩
          · exact hfq
          · exact fun x hx => hfq x (by simp [hx])
      have hev := evalA_safe (ro := σ.ro) (re := r.env) (lim := σ.lim) (dv := σ.dv) (grow := grow) (p := prog) n 0 {} false rd S _ h2 f1 _ hmine
      unfold evalProg at ha
      refine Todo.Safe.bind ?_ _ _ _ (hev.mono (fun _ _ _ h => h) (fun e he => ?_) (fun he => ?_))
      · rintro ⟨bn, bp, br, bt⟩ h3 M3 ⟨x, f3, hx, k1, k2, k3, k4, hp⟩
        intro h4 ho4
        have hp4 : Post h2 S f1 _ x.t h4 M3 f3 := Post.trans hp ⟨hp.mine.others ho4, ChgM.others hp.mine ho4, .refl, fun _ hx => hx⟩
        obtain ⟨v, fq2, c1, c2, c3, c4, c5, c6, c7⟩ := t3.closeM hMq t2 hp4.chg hp4.new hp4.mine.own
        have hlook : lookA ⟨(h1 ++ l).length, []⟩ h4 = .ok (v, h4) := by
          simp only [lookA, c1]
        refine And.intro (fun e he => nomatch (hlook.symm.trans he)) (fun y h5 hy => ?_)
        cases hlook.symm.trans hy
        refine ⟨Nat.le_refl _, fun _ _ _ => rfl, x.t, fq2, ?_, c2, c3, fun y hy => .inl ?_⟩
        · rw [← ha, hx]
          simp only
          cases k3
          rfl
        · rcases c7 y hy with h' | h'
          · exact hp4.mine.objs y h'
          · exact hp4.more y (hfq y h')
      · rw [← ha, he]
      · rw [← ha, he]

/-- With enough fuel, there is always enough. -/
theorem evalProg_mono {R T : Type} {ro : ReaderOps R} {fo : FieldOps T} {p : Program} {n : Nat} {r : R} {t : T} {o : Out (R × T)}
    (h : evalProg ro fo p n r t = o) (ho : o ≠ .timeout) {m : Nat} (hm : n ≤ m) : evalProg ro fo p m r t = o := by
  unfold evalProg at h ⊢
  have : evalInner ro fo p n 0 {} false r t ≠ .timeout := by
    intro hc
    rw [hc] at h
    exact ho h.symm
  rw [evalInner_mono ro fo p n _ _ _ _ _ this m hm]
  exact h
end Verif
