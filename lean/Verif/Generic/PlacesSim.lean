import Verif.Generic.PlacesDatum
/-
`Deserialize` of a generic codec, with the steps of others between its own: what it does to the objects that it has made.
-/
namespace Verif
set_option linter.unusedVariables false

/-- Others have changed memory from `h` to `h'`, but not the objects in `M`, which a call has made, nor those in `D`, which belong to
parsed schemas. -/
structure Spares (M D : Nat → Prop) (h h' : GHeap) : Prop where
  grows : h.length ≤ h'.length
  mine : ∀ a, M a → h'[a]? = h[a]?
  kept : ∀ a, D a → h'[a]? = h[a]?

theorem Spares.refl {M D : Nat → Prop} {h : GHeap} : Spares M D h h := ⟨Nat.le_refl _, fun _ _ => rfl, fun _ _ => rfl⟩

theorem Spares.trans {M D : Nat → Prop} {h h1 h2 : GHeap} (a : Spares M D h h1) (b : Spares M D h1 h2) : Spares M D h h2 :=
  ⟨Nat.le_trans a.grows b.grows, fun x hx => (b.mine x hx).trans (a.mine x hx), fun x hx => (b.kept x hx).trans (a.kept x hx)⟩

/-- `M` and what has come into being since. -/
def GrownG (M : Nat → Prop) (h h1 : GHeap) : Nat → Prop := fun x => M x ∨ (h.length ≤ x ∧ x < h1.length)

/-- The call has made the objects in `M`, memory is `h`. Whatever others do between its steps without touching those and the objects in `D`,
the call changes only those that it has made; at the end `Q` holds of the result, memory, and what the call has made; and `E` or `T` if the call
fails or has no more fuel. -/
def Todo.Sure {A : Type} (D : Nat → Prop) (Q : A → GHeap → (Nat → Prop) → Prop) (E : Err → Prop) (T : Prop) : Todo GCell A → GHeap → (Nat → Prop) → Prop
  | .ret (.done a), h, M => Q a h M
  | .ret (.err e), _, _ => E e
  | .ret .timeout, _, _ => T
  | .op f k, h, M => ∀ h1, Spares M D h h1 → (∀ e, f h1 = .error e → E e) ∧
      ∀ x h2, f h1 = .ok (x, h2) → h1.length ≤ h2.length ∧ (∀ a, a < h1.length → ¬ M a → h2[a]? = h1[a]?) ∧
        (k x).Sure D Q E T h2 (GrownG M h1 h2)

theorem Todo.Sure.mono {A : Type} {D D' : Nat → Prop} {Q Q' : A → GHeap → (Nat → Prop) → Prop} {E E' : Err → Prop} {T T' : Prop} (hD : ∀ x, D x → D' x)
    (hQ : ∀ a h M, Q a h M → Q' a h M) (hE : ∀ e, E e → E' e) (hT : T → T') :
    ∀ (a : Todo GCell A) (h : GHeap) (M : Nat → Prop), a.Sure D Q E T h M → a.Sure D' Q' E' T' h M
  | .ret (.done a), h, M, hs => hQ a h M hs
  | .ret (.err e), _, _, hs => hE e hs
  | .ret .timeout, _, _, hs => hT hs
  | .op f k, h, M, hs => fun h1 ho =>
      have ho' : Spares M D h h1 := ⟨ho.grows, ho.mine, fun x hx => ho.kept x (hD x hx)⟩
      ⟨fun e he => hE e ((hs h1 ho').1 e he), fun x h2 hf =>
      have := (hs h1 ho').2 x h2 hf
      ⟨this.1, this.2.1, Todo.Sure.mono hD hQ hE hT (k x) _ _ this.2.2⟩⟩

theorem Todo.Sure.bind {A B : Type} {D : Nat → Prop} {Q : A → GHeap → (Nat → Prop) → Prop} {Q' : B → GHeap → (Nat → Prop) → Prop} {E : Err → Prop} {T : Prop}
    {k : A → Todo GCell B} (hk : ∀ a h M, Q a h M → (k a).Sure D Q' E T h M) :
    ∀ (a : Todo GCell A) (h : GHeap) (M : Nat → Prop), a.Sure D Q E T h M → (a.bind k).Sure D Q' E T h M
  | .ret (.done a), h, M, hs => hk a h M hs
  | .ret (.err e), _, _, hs => hs
  | .ret .timeout, _, _, hs => hs
  | .op f g, h, M, hs => fun h1 ho => ⟨(hs h1 ho).1, fun x h2 hf =>
      have := (hs h1 ho).2 x h2 hf
      ⟨this.1, this.2.1, Todo.Sure.bind hk (g x) _ _ this.2.2⟩⟩

theorem Todo.Sure.others {A : Type} {D : Nat → Prop} {Q : A → GHeap → (Nat → Prop) → Prop} {E : Err → Prop} {T : Prop}
    (hQ : ∀ a h M h', Q a h M → Spares M D h h' → Q a h' M) : ∀ {a : Todo GCell A} {h h' : GHeap} {M : Nat → Prop}, a.Sure D Q E T h M → Spares M D h h' → a.Sure D Q E T h' M
  | .ret (.done a), h, h', M, hs, ho => hQ a h M h' hs ho
  | .ret (.err e), _, _, _, hs, _ => hs
  | .ret .timeout, _, _, _, hs, _ => hs
  | .op f k, h, h', M, hs, ho => fun h1 ho1 => hs h1 (ho.trans ho1)

section
variable {env : Env} {D : Nat → Prop} {dflt : Field → HVal}

/-- The call owns what the target is made of, and the variables of the schema hold its defaults. -/
structure DMine (env : Env) (D : Nat → Prop) (dflt : Field → HVal) (M : Nat → Prop) (h : GHeap) (a : Nat) (t : GTgt) (fp : List Nat) : Prop where
  rep : DRep env D h a t fp
  once : ∀ x, fp.count x ≤ 1
  here : ∀ x, M x → x < h.length
  objs : ∀ x ∈ fp, M x
  apart : ∀ x, D x → ¬ M x
  there : ∀ x, D x → x < h.length
  dflts : DefaultsAt env D h dflt

theorem DMine.own {M : Nat → Prop} {h : GHeap} {a : Nat} {t : GTgt} {fp : List Nat} (hm : DMine env D dflt M h a t fp) : DOwn env D h a t fp :=
  ⟨hm.rep, hm.once, fun x hx => hm.here x (hm.objs x hx), fun x hx hf => hm.apart x hx (hm.objs x hf)⟩

theorem DMine.others {M : Nat → Prop} {h h' : GHeap} {a : Nat} {t : GTgt} {fp : List Nat} (hm : DMine env D dflt M h a t fp) (ho : Spares M D h h') :
    DMine env D dflt M h' a t fp :=
  ⟨hm.rep.frame ho.kept fun x hx => ho.mine x (hm.objs x hx), hm.once, fun x hx => Nat.lt_of_lt_of_le (hm.here x hx) ho.grows, hm.objs, hm.apart,
    fun x hx => Nat.lt_of_lt_of_le (hm.there x hx) ho.grows, hm.dflts.frame ho.kept⟩

/-- The call has gone on from `h`, where it owned `M`, to `h2`, where it owns `M2`; the datum at `a` stands for `t`. -/
structure DPost (env : Env) (D : Nat → Prop) (dflt : Field → HVal) (h : GHeap) (a : Nat) (fp : List Nat) (M : Nat → Prop) (t : GTgt) (h2 : GHeap) (M2 : Nat → Prop) (fp2 : List Nat) : Prop where
  mine : DMine env D dflt M2 h2 a t fp2
  same : ∀ x, M x → x ≠ a → h2[x]? = h[x]?
  kept : ∀ x, D x → h2[x]? = h[x]?
  new : ∀ x ∈ fp2, x ∈ fp ∨ ¬ M x
  more : ∀ x, M x → M2 x

theorem DPost.refl {h : GHeap} {a : Nat} {t : GTgt} {fp : List Nat} {M : Nat → Prop} (hm : DMine env D dflt M h a t fp) : DPost env D dflt h a fp M t h M fp :=
  ⟨hm, fun _ _ _ => rfl, fun _ _ => rfl, fun _ hx => .inl hx, fun _ hx => hx⟩

theorem DPost.trans {h h1 h2 : GHeap} {a : Nat} {t1 t2 : GTgt} {fp fp1 fp2 : List Nat} {M M1 M2 : Nat → Prop} (p : DPost env D dflt h a fp M t1 h1 M1 fp1)
    (q : DPost env D dflt h1 a fp1 M1 t2 h2 M2 fp2) : DPost env D dflt h a fp M t2 h2 M2 fp2 :=
  ⟨q.mine, fun x hx hxa => (q.same x (p.more x hx) hxa).trans (p.same x hx hxa), fun x hx => (q.kept x hx).trans (p.kept x hx),
    fun x hx => (q.new x hx).elim (fun h => p.new x h) (fun h => .inr fun hm => h (p.more x hm)), fun x hx => q.more x (p.more x hx)⟩

theorem DPost.others {h h' : GHeap} {a : Nat} {t : GTgt} {fp : List Nat} {M : Nat → Prop} (hm : DMine env D dflt M h a t fp) (ho : Spares M D h h') : DPost env D dflt h a fp M t h' M fp :=
  ⟨hm.others ho, fun x hx _ => ho.mine x hx, ho.kept, fun _ hx => .inl hx, fun _ hx => hx⟩

/-- A method call. -/
theorem method_sure {f : GState → Except Err GState} {A : Except Err GTgt} {E : Err → Prop} {T : Prop} {h : GHeap} {P : Nat} {t : GTgt}
    {fp : List Nat} {M : Nat → Prop} (hm : DMine env D dflt M h P t fp) (hf : ∀ h', DMine env D dflt M h' P t fp → FollowsG env D h' P fp A (f (P, h')))
    (hE : ∀ e, A = .error e → E e) :
    (methodA f P).Sure D (fun P' h2 M2 => P' = P ∧ ∃ t' fp', A = .ok t' ∧ DPost env D dflt h P fp M t' h2 M2 fp') E T h M := by
  intro h1 ho
  have hm1 := hm.others ho
  have hs := hf h1 hm1
  cases hb : f (P, h1) with
  | error e =>
    refine ⟨fun e' he => ?_, fun x h2 hx => nomatch (hb.symm.trans hx)⟩
    cases hb.symm.trans he
    rw [hb] at hs
    cases A with
    | error e' => exact hE e (by rw [show e' = e from hs])
    | ok t => exact False.elim hs
  | ok s =>
    refine And.intro (fun e he => nomatch (hb.symm.trans he)) (fun x h2 hx => ?_)
    cases hb.symm.trans hx
    rw [hb] at hs
    cases A with
    | error e' => exact False.elim hs
    | ok t' =>
      obtain ⟨rfl, e2, e3, e4⟩ := hs
      have hPM : M x := hm.objs x hm.rep.head
      have hkept : ∀ y, D y → h2[y]? = h1[y]? := fun y hy => e3 y (hm1.there y hy) (fun he => hm.apart y hy (he ▸ hPM))
      obtain ⟨fp', e5, e6⟩ := e4 hkept
      have hnew : ∀ y ∈ fp', y ∈ fp ∨ h1.length ≤ y := fun y hy => by
        have h7 := e6 y
        have h8 := List.count_pos_iff.mpr hy
        by_cases hl : y < h1.length
        · rw [if_pos hl] at h7
          exact .inl (List.count_pos_iff.mp (by omega))
        · exact .inr (by omega)
      have hlt : ∀ y ∈ fp', y < h2.length := fun y hy => by
        rcases hnew y hy with h' | h'
        · exact Nat.lt_of_lt_of_le (hm1.here y (hm.objs y h')) e2
        · exact drep_lt e5 y hy
      refine ⟨e2, fun y hy hn => e3 y hy (fun he => hn (he ▸ hPM)), rfl, t', fp', rfl, (DPost.others hm ho).trans ⟨⟨e5, ?_, ?_, ?_, ?_, ?_, hm1.dflts.frame hkept⟩, ?_, hkept, ?_, fun y hy => .inl hy⟩⟩
      · intro y
        have h7 := e6 y
        have h8 := hm.once y
        by_cases hl : y < h1.length
        · rw [if_pos hl] at h7; omega
        · rw [if_neg hl] at h7; omega
      · rintro y (hy | hy)
        · exact Nat.lt_of_lt_of_le (hm1.here y hy) e2
        · exact hy.2
      · intro y hy
        rcases hnew y hy with h' | h'
        · exact .inl (hm.objs y h')
        · exact .inr ⟨h', hlt y hy⟩
      · rintro y hy (hy' | hy')
        · exact hm.apart y hy hy'
        · have := hm1.there y hy; omega
      · exact fun y hy => Nat.lt_of_lt_of_le (hm1.there y hy) e2
      · exact fun y hy hya => e3 y (hm1.here y hy) hya
      · intro y hy
        rcases hnew y hy with h' | h'
        · exact .inl h'
        · exact .inr fun hm' => by have := hm1.here y hm'; omega

/-- A method call that returns a target. -/
theorem sub_sure {f : GState → Except Err GState} {put : GTgt → GTgt} {A : Except Err GTgt} {E : Err → Prop} {T : Prop} {h : GHeap} {P : Nat} {t : GTgt}
    {fp : List Nat} {M : Nat → Prop} (hm : DMine env D dflt M h P t fp) (hf : ∀ h', DMine env D dflt M h' P t fp → SubSimG env D h' P fp put A (f (P, h')))
    (hE : ∀ e, A = .error e → E e) :
    (methodA f P).Sure D (fun S h1 M1 => ∃ s f1, A = .ok s ∧ DMine env D dflt M1 h1 S s f1 ∧
      ∀ t2 h2 M2 f2, DPost env D dflt h1 S f1 M1 t2 h2 M2 f2 → ∃ fp2, DPost env D dflt h P fp M (put t2) h2 M2 fp2) E T h M := by
  intro h1 ho
  have hm1 := hm.others ho
  have hs := hf h1 hm1
  cases hb : f (P, h1) with
  | error e =>
    refine ⟨fun e' he => ?_, fun x h2 hx => nomatch (hb.symm.trans hx)⟩
    cases hb.symm.trans he
    rw [hb] at hs
    cases A with
    | error e' => exact hE e (by rw [show e' = e from hs])
    | ok t => exact False.elim hs
  | ok s =>
    refine And.intro (fun e he => nomatch (hb.symm.trans he)) (fun x h2 hx => ?_)
    cases hb.symm.trans hx
    rw [hb] at hs
    cases A with
    | error e' => exact False.elim hs
    | ok s =>
      obtain ⟨rfl, e2, e3, e4, e5⟩ := hs
      have hPM : M P := hm.objs P hm.rep.head
      have hPl := hm1.rep.lt
      simp only at e2 e3 e4 e5
      have hkept : ∀ y, D y → h2[y]? = h1[y]? := fun y hy => e3 y (hm1.there y hy) (fun he => hm.apart y hy (he ▸ hPM))
      refine ⟨by omega, fun y hy hn => e3 y hy (fun he => hn (he ▸ hPM)), s, [h1.length], rfl, ⟨e4, ?_, ?_, ?_, ?_, ?_, hm1.dflts.frame hkept⟩, ?_⟩
      · intro y; simp only [List.count_singleton]; split <;> simp
      · rintro y (hy | hy)
        · have := hm1.here y hy; omega
        · exact hy.2
      · intro y hy
        simp only [List.mem_singleton] at hy
        subst hy
        exact .inr ⟨Nat.le_refl _, by omega⟩
      · rintro y hy (hy' | hy')
        · exact hm.apart y hy hy'
        · have := hm1.there y hy; omega
      · intro y hy
        have := hm1.there y hy
        omega
      · intro t2 h3 M3 f3 hp
        have hold : ∀ y, M y → y ≠ h1.length := fun y hy => by have := hm1.here y hy; omega
        have hsame : ∀ y, M y → y ≠ P → h3[y]? = h1[y]? := fun y hy hya => (hp.same y (.inl hy) (hold y hy)).trans (e3 y (hm1.here y hy) hya)
        have hf3 : ∀ y ∈ f3, ¬ M y := fun y hy hM => by
          rcases hp.new y hy with h' | h'
          · simp only [List.mem_singleton] at h'
            exact hold y hM h'
          · exact h' (.inl hM)
        have hk3 : ∀ y, D y → h3[y]? = h1[y]? := fun y hy => (hp.kept y hy).trans (hkept y hy)
        obtain ⟨fp', c1, c2⟩ := e5 h3 t2 f3 (hp.same P (.inl hPM) (hold P hPM)) (fun y hy hya => hsame y (hm.objs y hy) hya) hk3 hp.mine.rep
        have hmem : ∀ y ∈ fp', y ∈ fp ∨ y ∈ f3 := fun y hy => by
          have h7 := c2 y
          have h8 := List.count_pos_iff.mpr hy
          by_cases hl : y ∈ fp
          · exact .inl hl
          · have := List.count_eq_zero.mpr hl
            exact .inr (List.count_pos_iff.mp (by omega))
        refine ⟨fp', (DPost.others hm ho).trans ⟨⟨c1, ?_, hp.mine.here, ?_, hp.mine.apart, hp.mine.there, hm1.dflts.frame hk3⟩, hsame, hk3, ?_, fun y hy => hp.more y (.inl hy)⟩⟩
        · intro y
          have h7 := c2 y
          have h8 := hm.once y
          have h9 := hp.mine.once y
          by_cases hl : y ∈ fp
          · have := List.count_eq_zero.mpr (fun h => hf3 y h (hm.objs y hl))
            omega
          · have := List.count_eq_zero.mpr hl
            omega
        · intro y hy
          rcases hmem y hy with h' | h'
          · exact hp.more y (.inl (hm.objs y h'))
          · exact hp.mine.objs y h'
        · intro y hy
          rcases hmem y hy with h' | h'
          · exact .inl h'
          · exact .inr (hf3 y h')

/-- The evaluation with targets as states ends as `a` says. -/
def EndsInG (env : Env) (D : Nat → Prop) (dflt : Field → HVal) {R : Type} (a : Out (Ret R GTgt)) (h : GHeap) (P : Nat) (fp : List Nat) (M : Nat → Prop) (b : Ret R Nat) (h2 : GHeap) (M2 : Nat → Prop) : Prop :=
  ∃ x fp2, a = .done x ∧ x.nil = b.nil ∧ x.pc = b.pc ∧ x.r = b.r ∧ b.t = P ∧ DPost env D dflt h P fp M x.t h2 M2 fp2

def EndsAsG (env : Env) (D : Nat → Prop) (dflt : Field → HVal) {R : Type} (a : Out (Ret R GTgt)) (h : GHeap) (P : Nat) (fp : List Nat) (M : Nat → Prop) (b : Todo GCell (Ret R Nat)) (h1 : GHeap) (M1 : Nat → Prop) : Prop :=
  b.Sure D (EndsInG env D dflt a h P fp M) (fun e => a = .err e) (a = .timeout) h1 M1

theorem EndsAsG.back {R : Type} {a : Out (Ret R GTgt)} {h h1 : GHeap} {P : Nat} {t : GTgt} {fp fp1 : List Nat} {M M1 : Nat → Prop} {b : Todo GCell (Ret R Nat)}
    (hp : DPost env D dflt h P fp M t h1 M1 fp1) (hs : EndsAsG env D dflt a h1 P fp1 M1 b h1 M1) : EndsAsG env D dflt a h P fp M b h1 M1 := by
  refine hs.mono (fun _ h => h) ?_ (fun _ h => h) id
  rintro b h2 M2 ⟨x, fp2, e1, e2, e3, e4, e5, e6⟩
  exact ⟨x, fp2, e1, e2, e3, e4, e5, hp.trans e6⟩

/-- A method call, and what comes after it. -/
theorem method_thenG {R : Type} {f : GState → Except Err GState} {A : Except Err GTgt} {X : Out (Ret R GTgt)} {h : GHeap} {P : Nat} {t : GTgt}
    {fp : List Nat} {M : Nat → Prop} (k : GTgt → Out (Ret R GTgt)) (k' : Nat → Todo GCell (Ret R Nat)) (hm : DMine env D dflt M h P t fp)
    (hf : ∀ h', DMine env D dflt M h' P t fp → FollowsG env D h' P fp A (f (P, h')))
    (hXe : ∀ e, A = .error e → X = .err e) (hX : ∀ t, A = .ok t → X = k t)
    (hk : ∀ t' h' fp' M', DMine env D dflt M' h' P t' fp' → EndsAsG env D dflt (k t') h' P fp' M' (k' P) h' M') : EndsAsG env D dflt X h P fp M ((methodA f P).bind k') h M := by
  refine Todo.Sure.bind ?_ _ _ _ (method_sure hm hf hXe)
  rintro P' h' M' ⟨rfl, t', fp', hA, hp⟩
  rw [hX t' hA]
  exact (hk t' h' fp' M' hp.mine).back hp

/-- An activation of `evalInner`, and what comes after it. -/
theorem eval_thenG {R : Type} {E X : Out (Ret R GTgt)} {b : Todo GCell (Ret R Nat)} {h : GHeap} {P : Nat} {t : GTgt} {fp : List Nat} {M : Nat → Prop}
    (k : Ret R GTgt → Out (Ret R GTgt)) (k' : Ret R Nat → Todo GCell (Ret R Nat)) (hm : DMine env D dflt M h P t fp) (hE : EndsAsG env D dflt E h P fp M b h M)
    (hXt : E = .timeout → X = .timeout) (hXe : ∀ e, E = .err e → X = .err e) (hX : ∀ a, E = .done a → X = k a)
    (hk : ∀ (a : Ret R Nat) t' h' fp' M', DMine env D dflt M' h' P t' fp' → EndsAsG env D dflt (k ⟨a.nil, a.pc, a.r, t'⟩) h' P fp' M' (k' ⟨a.nil, a.pc, a.r, P⟩) h' M') :
    EndsAsG env D dflt X h P fp M (b.bind k') h M := by
  refine Todo.Sure.bind ?_ _ _ _ (hE.mono (fun _ h => h) (fun _ _ _ h => h) (fun e he => hXe e he) hXt)
  rintro ⟨bn, bp, br, bt⟩ h' M' ⟨⟨xn, xp, xr, xt⟩, fp', hx, e1, e2, e3, e4, hp⟩
  cases e1; cases e2; cases e3; cases e4
  rw [hX _ hx]
  exact (hk ⟨_, _, _, bt⟩ _ h' fp' M' hp.mine).back hp

/-- A method call that returns a target, an activation for it, and what comes after. -/
theorem sub_thenG {R : Type} {f : GState → Except Err GState} {put : GTgt → GTgt} {A : Except Err GTgt} {X : Out (Ret R GTgt)} {h : GHeap} {P : Nat} {t : GTgt}
    {fp : List Nat} {M : Nat → Prop} (E : GTgt → Out (Ret R GTgt)) (E' : Nat → Todo GCell (Ret R Nat))
    (k : Ret R GTgt → Out (Ret R GTgt)) (k' : Ret R Nat → Todo GCell (Ret R Nat)) (hm : DMine env D dflt M h P t fp)
    (hf : ∀ h', DMine env D dflt M h' P t fp → SubSimG env D h' P fp put A (f (P, h')))
    (hXe : ∀ e, A = .error e → X = .err e)
    (hX : ∀ s, A = .ok s → (E s = .timeout → X = .timeout) ∧ (∀ e, E s = .err e → X = .err e) ∧ ∀ a, E s = .done a → X = k a)
    (hE : ∀ s S h1 f1 M1, DMine env D dflt M1 h1 S s f1 → EndsAsG env D dflt (E s) h1 S f1 M1 (E' S) h1 M1)
    (hk : ∀ (a : Ret R GTgt) (b : Ret R Nat) h' fp' M', a.nil = b.nil → a.pc = b.pc → a.r = b.r → DMine env D dflt M' h' P (put a.t) fp' → EndsAsG env D dflt (k a) h' P fp' M' (k' b) h' M') :
    EndsAsG env D dflt X h P fp M ((methodA f P).bind fun S => (E' S).bind k') h M := by
  refine Todo.Sure.bind ?_ _ _ _ (sub_sure hm hf hXe)
  rintro S h1 M1 ⟨s, f1, hA, hm1, hc⟩
  obtain ⟨x1, x2, x3⟩ := hX s hA
  refine Todo.Sure.bind ?_ _ _ _ ((hE s S h1 f1 M1 hm1).mono (fun _ h => h) (fun _ _ _ h => h) x2 x1)
  rintro b h2 M2 ⟨a, f2, ha, e1, e2, e3, e4, hp⟩
  obtain ⟨fp2, hp2⟩ := hc _ _ _ _ hp
  rw [x3 a ha]
  exact (hk a b h2 fp2 M2 e1 e2 e3 hp2.mine).back hp2

/-- `if setToNil { target.NullField(i) }`, and what comes after it. -/
theorem nullIf_thenG {R : Type} {lim : Nat} {X : Out (Ret R GTgt)} {h : GHeap} {P : Nat} {t : GTgt}
    {fp : List Nat} {M : Nat → Prop} {nil : Bool} {i : Int} (k : GTgt → Out (Ret R GTgt)) (k' : Nat → Todo GCell (Ret R Nat)) (hm : DMine env D dflt M h P t fp)
    (hXe : ∀ e, nullIf (gOps env lim) nil t i = .error e → X = .err e) (hX : ∀ t', nullIf (gOps env lim) nil t i = .ok t' → X = k t')
    (hk : ∀ t' h' fp' M', DMine env D dflt M' h' P t' fp' → EndsAsG env D dflt (k t') h' P fp' M' (k' P) h' M') :
    EndsAsG env D dflt X h P fp M ((nullIfA (placeOps env lim dflt) nil P i).bind k') h M := by
  cases nil with
  | true =>
    exact method_thenG (f := fun s => (placeOps env lim dflt).nullField s i) (A := gNullField t i) k k' hm
      (fun h' ho => nullField_simG ho.own i) hXe hX hk
  | false =>
    rw [hX t rfl]
    exact hk t h fp M hm

/-- The evaluation of any program: with the steps of others between its own it ends as it does alone, with targets as states. -/
theorem evalA_sure {R : Type} {ro : ReaderOps R} {lim : Nat} {p : Program} :
    ∀ (n pc : Nat) (fr : Frame) (fl : Bool) (r : R) (P : Nat) (t : GTgt) (h : GHeap) (fp : List Nat) (M : Nat → Prop), DMine env D dflt M h P t fp →
      EndsAsG env D dflt (evalInner ro (gOps env lim) p n pc fr fl r t) h P fp M (evalA ro (placeOps env lim dflt) p n pc fr fl r P) h M
  | 0, _, _, _, _, _, _, _, _, _, _ => rfl
  | n + 1, pc, fr, fl, r, P, t, h, fp, M, hm => by
    have ih := @evalA_sure R ro lim p n
    have hdone : ∀ nil pc (r : R), EndsAsG env D dflt (.done ⟨nil, pc, r, t⟩) h P fp M (.ret (.done ⟨nil, pc, r, P⟩)) h M := fun nil pc r =>
      ⟨_, fp, rfl, rfl, rfl, rfl, rfl, .refl hm⟩
    unfold evalInner evalA
    cases hi : p.instrs[pc]? with
    | none => exact hdone _ _ _
    | some i =>
      obtain ⟨op, arg⟩ := i
      cases op with
      | read =>
        simp only
        cases doRead ro arg fr r with
        | error e => exact rfl
        | ok x => exact ih _ _ _ _ _ _ _ _ _ hm
      | set =>
        simp only
        exact method_thenG (A := doSet (gOps env lim) arg fr t) (fun t => evalInner ro (gOps env lim) p n (pc + 1) fr fl r t) _ hm
          (fun h' ho => doSet_simG ho.own arg fr) (fun e he => by simp only [he]) (fun t he => by simp only [he])
          (fun t' h' fp' M' hm' => ih _ _ _ _ _ _ _ _ _ hm')
      | setDefault =>
        simp only
        exact method_thenG (A := (gOps env lim).setDefault t arg) (fun t => evalInner ro (gOps env lim) p n (pc + 1) fr fl r t) _ hm
          (fun h' ho => setDefault_simG ho.dflts ho.own arg) (fun e he => by simp only [he]) (fun t he => by simp only [he])
          (fun t' h' fp' M' hm' => ih _ _ _ _ _ _ _ _ _ hm')
      | enter =>
        simp only
        refine sub_thenG (A := (gOps env lim).get t arg) (put := fun s => gPut t arg s)
          (fun s => evalInner ro (gOps env lim) p n (pc + 1) {} false r s) (fun S => evalA ro (placeOps env lim dflt) p n (pc + 1) {} false r S)
          (fun ret => match nullIf (gOps env lim) ret.nil ((gOps env lim).put t arg ret.t) arg with
            | .error e => .err e
            | .ok t' => evalInner ro (gOps env lim) p n (ret.pc + 1) fr fl ret.r t') _ hm (fun h' ho => get_simG ho.rep.lt ho.own arg)
          (fun e he => by simp only [he])
          (fun s he => ⟨fun h2 => by simp only [he, h2], fun e h2 => by simp only [he, h2], fun a h2 => by simp only [he, h2]; generalize nullIf _ _ _ _ = z; cases z <;> rfl⟩)
          (fun s S h1 f1 M1 hm1 => ih _ _ _ _ _ _ _ _ _ hm1) ?_
        rintro ⟨an, ap, ar, at'⟩ ⟨bn, bp, br, bt⟩ h' fp' M' rfl rfl rfl hm'
        refine nullIf_thenG (lim := lim) (fun t' => evalInner ro (gOps env lim) p n (ap + 1) fr fl ar t') _ hm'
          (fun e he => ?_) (fun t1 he => ?_) (fun t' h' fp' M' hm' => ih _ _ _ _ _ _ _ _ _ hm')
        · show (match nullIf (gOps env lim) an (gPut t arg at') arg with | .error e => _ | .ok t' => _) = _
          rw [he]
        · show (match nullIf (gOps env lim) an (gPut t arg at') arg with | .error e => _ | .ok t' => _) = _
          rw [he]
      | exit =>
        simp only
        exact method_thenG (A := (gOps env lim).finalize t) (fun t => .done ⟨fl, pc, r, t⟩) _ hm
          (fun h' ho => follows_self ho.own) (fun e he => by simp only [he]) (fun t he => by simp only [he])
          (fun t' h' fp' M' hm' => ⟨_, fp', rfl, rfl, rfl, rfl, rfl, .refl hm'⟩)
      | setExitNull => exact ih _ _ _ _ _ _ _ _ _ hm
      | appendArray =>
        simp only
        refine sub_thenG (A := (gOps env lim).appendArray t) (put := fun s => gPutArray t s)
          (fun s => evalInner ro (gOps env lim) p n (pc + 1) {} false r s) (fun S => evalA ro (placeOps env lim dflt) p n (pc + 1) {} false r S)
          (fun ret => match nullIf (gOps env lim) ret.nil ((gOps env lim).putArray t ret.t) (-1) with
            | .error e => .err e
            | .ok t' => evalInner ro (gOps env lim) p n (ret.pc + 1) fr fl ret.r t') _ hm (fun h' ho => appendArray_simG ho.own)
          (fun e he => by simp only [he])
          (fun s he => ⟨fun h2 => by simp only [he, h2], fun e h2 => by simp only [he, h2], fun a h2 => by simp only [he, h2]; generalize nullIf _ _ _ _ = z; cases z <;> rfl⟩)
          (fun s S h1 f1 M1 hm1 => ih _ _ _ _ _ _ _ _ _ hm1) ?_
        rintro ⟨an, ap, ar, at'⟩ ⟨bn, bp, br, bt⟩ h' fp' M' rfl rfl rfl hm'
        refine nullIf_thenG (lim := lim) (fun t' => evalInner ro (gOps env lim) p n (ap + 1) fr fl ar t') _ hm'
          (fun e he => ?_) (fun t1 he => ?_) (fun t' h' fp' M' hm' => ih _ _ _ _ _ _ _ _ _ hm')
        · show (match nullIf (gOps env lim) an (gPutArray t at') (-1) with | .error e => _ | .ok t' => _) = _
          rw [he]
        · show (match nullIf (gOps env lim) an (gPutArray t at') (-1) with | .error e => _ | .ok t' => _) = _
          rw [he]
      | appendMap =>
        simp only
        refine sub_thenG (A := (gOps env lim).appendMap t fr.string) (put := fun s => gPutMap t fr.string s)
          (fun s => evalInner ro (gOps env lim) p n (pc + 1) {} false r s) (fun S => evalA ro (placeOps env lim dflt) p n (pc + 1) {} false r S)
          (fun ret => match nullIf (gOps env lim) ret.nil ((gOps env lim).putMap t fr.string ret.t) (-1) with
            | .error e => .err e
            | .ok t' => evalInner ro (gOps env lim) p n (ret.pc + 1) fr fl ret.r t') _ hm (fun h' ho => appendMap_simG ho.own fr.string)
          (fun e he => by simp only [he])
          (fun s he => ⟨fun h2 => by simp only [he, h2], fun e h2 => by simp only [he, h2], fun a h2 => by simp only [he, h2]; generalize nullIf _ _ _ _ = z; cases z <;> rfl⟩)
          (fun s S h1 f1 M1 hm1 => ih _ _ _ _ _ _ _ _ _ hm1) ?_
        rintro ⟨an, ap, ar, at'⟩ ⟨bn, bp, br, bt⟩ h' fp' M' rfl rfl rfl hm'
        refine nullIf_thenG (lim := lim) (fun t' => evalInner ro (gOps env lim) p n (ap + 1) fr fl ar t') _ hm'
          (fun e he => ?_) (fun t1 he => ?_) (fun t' h' fp' M' hm' => ih _ _ _ _ _ _ _ _ _ hm')
        · show (match nullIf (gOps env lim) an (gPutMap t fr.string at') (-1) with | .error e => _ | .ok t' => _) = _
          rw [he]
        · show (match nullIf (gOps env lim) an (gPutMap t fr.string at') (-1) with | .error e => _ | .ok t' => _) = _
          rw [he]
      | call =>
        simp only
        by_cases hneg : arg < 0
        · rw [if_pos hneg, if_pos hneg]; exact rfl
        · rw [if_neg hneg, if_neg hneg]
          exact eval_thenG (fun ret => evalInner ro (gOps env lim) p n (pc + 1) fr fl ret.r ret.t) _ hm
            (ih (arg.toNat) {} false r _ _ _ _ _ hm) (fun he => by simp only [he]) (fun e he => by simp only [he]) (fun a he => by simp only [he])
            (fun a t' h' fp' M' hm' => ih _ _ _ _ _ _ _ _ _ hm')
      | ret => exact hdone _ _ _
      | jump =>
        simp only
        by_cases hneg : arg < 0
        · rw [if_pos hneg, if_pos hneg]; exact rfl
        · rw [if_neg hneg, if_neg hneg]; exact ih _ _ _ _ _ _ _ _ _ hm
      | evalGreater => exact ih _ _ _ _ _ _ _ _ _ hm
      | evalEqual => exact ih _ _ _ _ _ _ _ _ _ hm
      | condJump =>
        simp only
        by_cases hc : fr.cond = true
        · rw [if_pos hc, if_pos hc]
          by_cases hneg : arg < 0
          · rw [if_pos hneg, if_pos hneg]; exact rfl
          · rw [if_neg hneg, if_neg hneg]; exact ih _ _ _ _ _ _ _ _ _ hm
        · rw [if_neg hc, if_neg hc]; exact ih _ _ _ _ _ _ _ _ _ hm
      | addLong => exact ih _ _ _ _ _ _ _ _ _ hm
      | setLong => exact ih _ _ _ _ _ _ _ _ _ hm
      | setInt => exact ih _ _ _ _ _ _ _ _ _ hm
      | multLong => exact ih _ _ _ _ _ _ _ _ _ hm
      | hintSize =>
        simp only
        exact method_thenG (A := (gOps env lim).hintSize t fr.long) (fun t => evalInner ro (gOps env lim) p n (pc + 1) fr fl r t) _ hm
          (fun h' ho => hintSize_simG ho.own lim fr.long) (fun e he => by simp only [he]) (fun t he => by simp only [he])
          (fun t' h' fp' M' hm' => ih _ _ _ _ _ _ _ _ _ hm')
      | pushLoop =>
        simp only
        exact eval_thenG (fun ret => evalInner ro (gOps env lim) p n (ret.pc + 1) fr fl ret.r ret.t) _ hm
          (ih (pc + 1) {} false r _ _ _ _ _ hm) (fun he => by simp only [he]) (fun e he => by simp only [he]) (fun a he => by simp only [he])
          (fun a t' h' fp' M' hm' => ih _ _ _ _ _ _ _ _ _ hm')
      | popLoop => exact hdone _ _ _
      | halt =>
        simp only
        by_cases h0 : arg = 0
        · rw [if_pos h0, if_pos h0]; exact hdone _ _ _
        · rw [if_neg h0, if_neg h0]
          by_cases hneg : arg < 0
          · rw [if_pos hneg, if_pos hneg]; exact rfl
          · rw [if_neg hneg, if_neg hneg]
            cases p.errors[arg.toNat - 1]? with
            | none => exact rfl
            | some m => exact rfl
      | nullField =>
        simp only
        exact method_thenG (A := (gOps env lim).nullField t arg) (fun t => evalInner ro (gOps env lim) p n (pc + 1) fr fl r t) _ hm
          (fun h' ho => nullField_simG ho.own arg) (fun e he => by simp only [he]) (fun t he => by simp only [he])
          (fun t' h' fp' M' hm' => ih _ _ _ _ _ _ _ _ _ hm')

/-- What a call returns: what is left of the input, and `Datum()`, which panics or is a value that shows what the target of the evaluation with targets
as states holds. It is made of objects that the call has made, each of which is used once, and of objects in `D`. -/
def ReturnsG {R : Type} (D : Nat → Prop) (a : Out (R × GTgt)) (b : R × Option HVal) (h : GHeap) (M : Nat → Prop) : Prop :=
  ∃ t, a = .done (b.1, t) ∧ match b.2 with
    | none => t.datum = none
    | some v => ∃ g fp, t.datum = some g ∧ MadeOf (seen h) g v fp ∧ ∀ x ∈ fp, D x ∨ (M x ∧ fp.count x = 1)

theorem ReturnsG.others {R : Type} {a : Out (R × GTgt)} (b : R × Option HVal) (h : GHeap) (M : Nat → Prop) (h' : GHeap) (hr : ReturnsG D a b h M) (ho : Spares M D h h') :
    ReturnsG D a b h' M := by
  obtain ⟨rd, v⟩ := b
  obtain ⟨t, e1, e2⟩ := hr
  refine ⟨t, e1, ?_⟩
  cases v with
  | none => exact e2
  | some v =>
    obtain ⟨g, fp, e2, e3, e4⟩ := e2
    exact ⟨g, fp, e2, e3.same fun x hx => seen_same ((e4 x hx).elim (fun h => ho.kept x h) (fun h => ho.mine x h.1)), e4⟩

/-- A call, with the steps of others between its own. -/
theorem callG_sure {R : Type} {σ : Setting R} {r : Schema} {prog : Program} {n : Nat} {rd : R} {a : Out (R × GTgt)} {h : GHeap}
    (hd : DefaultsAt r.env D h dflt) (hlt : ∀ x, D x → x < h.length)
    (ha : evalProg σ.ro (gOps r.env σ.lim) prog n rd (.new r.env r.root) = a) :
    (callG σ dflt r prog n rd).Sure D (ReturnsG D a) (fun e => a = .err e) (a = .timeout) h (fun _ => False) := by
  intro h1 ho
  refine And.intro (fun e he => nomatch he) (fun x h2 hx => ?_)
  cases hx
  have hget : (h1 ++ [GCell.datum (.new r.env r.root)])[h1.length]? = some (.datum (.new r.env r.root)) := by simp
  have hk : ∀ x, D x → (h1 ++ [GCell.datum (.new r.env r.root)])[x]? = h1[x]? := fun x hx => get_old (Nat.lt_of_lt_of_le (hlt x hx) ho.grows)
  have hmine : DMine r.env D dflt (GrownG (fun _ => False) h1 (h1 ++ [.datum (.new r.env r.root)])) (h1 ++ [.datum (.new r.env r.root)]) h1.length (.new r.env r.root) [h1.length] := by
    refine ⟨drep_new hget, fun y => ?_, fun y hy => hy.elim (fun h => h.elim) (·.2), fun y hy => ?_, ?_, ?_, (hd.frame ho.kept).frame hk⟩
    · simp only [List.count_singleton]; split <;> simp
    · rw [List.mem_singleton.mp hy]; exact .inr ⟨Nat.le_refl _, by simp⟩
    · rintro y hy (h' | h')
      · exact h'
      · have := hlt y hy; have := ho.grows; omega
    · intro y hy
      have := hlt y hy
      have := ho.grows
      simp; omega
  refine ⟨by simp, fun y hy _ => get_old hy, ?_⟩
  have hev := evalA_sure (ro := σ.ro) (lim := σ.lim) (p := prog) n 0 {} false rd _ _ _ _ _ hmine
  unfold evalProg at ha
  refine Todo.Sure.bind ?_ _ _ _ (hev.mono (fun _ h => h) (fun _ _ _ h => h) (fun e he => ?_) (fun he => ?_))
  · rintro ⟨bn, bp, br, bt⟩ h3 M3 ⟨x, f3, hx, k1, k2, k3, k4, hp⟩
    intro h4 ho4
    have hm4 := hp.mine.others ho4
    have hret : a = .done (br, x.t) := by
      rw [← ha, hx]
      simp only
      rw [show x.r = br from k3]
    have hok := datumAt_ok (env := r.env) (D := D) h4.length (h4.length + 1) h1.length h4 x.t f3 hm4.rep (fun y hy => hm4.here y (hm4.objs y hy)) (by omega)
      (Nat.le_refl _) hm4.there
    cases hdt : x.t.datum with
    | none =>
      have hlook : datumG h1.length h4 = .ok (none, h4) := by simp only [datumG, hok.1 hdt]
      refine And.intro (fun e he => nomatch (hlook.symm.trans he)) (fun y h5 hy => ?_)
      cases hlook.symm.trans hy
      exact ⟨Nat.le_refl _, fun _ _ _ => rfl, x.t, hret, hdt⟩
    | some g =>
      obtain ⟨v, X, mf, c1, c2, c3⟩ := hok.2 g hdt
      have hlook : datumG h1.length h4 = .ok (some v, h4 ++ X) := by simp only [datumG, c1]
      refine And.intro (fun e he => nomatch (hlook.symm.trans he)) (fun y h5 hy => ?_)
      cases hlook.symm.trans hy
      refine ⟨by simp, fun y hy _ => List.getElem?_append_left hy, x.t, hret, g, mf, hdt, c2, fun y hy => ?_⟩
      by_cases hD : D y
      · exact .inl hD
      · right
        have h7 := c3 y hD
        have h8 := List.count_pos_iff.mpr hy
        have h9 := hm4.once y
        by_cases hf : y ∈ f3
        · have hM := hm4.objs y hf
          have h10 : freshCount h4.length (h4 ++ X).length y = 0 := if_neg (by have := hm4.here y hM; omega)
          exact ⟨.inl hM, by omega⟩
        · have h11 := List.count_eq_zero.mpr hf
          by_cases hfr : h4.length ≤ y ∧ y < (h4 ++ X).length
          · have h10 : freshCount h4.length (h4 ++ X).length y = 1 := if_pos hfr
            exact ⟨.inr hfr, by omega⟩
          · have h10 : freshCount h4.length (h4 ++ X).length y = 0 := if_neg hfr
            omega
  · rw [← ha, he]
  · rw [← ha, he]

end
end Verif
