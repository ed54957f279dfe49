import Verif.Compiler.Link
/-
The virtual machine running a compiled program does what `interp` says.
-/
set_option linter.unusedSimpArgs false
set_option linter.unusedVariables false
namespace Verif
variable {R T : Type}

/-- Setting two defaults in either order gives the same. -/
def DefaultsCommute (fo : FieldOps T) : Prop :=
  ∀ t i j, (fo.setDefault t i).bind (fun t' => fo.setDefault t' j) =
    (fo.setDefault t j).bind (fun t' => fo.setDefault t' i)

/-- A definition found under two names is the same if its own name is. -/
def NamesOK (env : Env) : Prop :=
  ∀ q q' d d', env.find q = some d → env.find q' = some d' → d.name = d'.name → d = d'

/-- No fixed has a negative size. -/
def SizesOK (env : Env) : Prop :=
  ∀ q d n, env.find q = some d → d.kind = .fixed n → 0 ≤ n

/-- What is known of the whole program while its pieces are looked at. -/
structure Ctx (ro : ReaderOps R) (fo : FieldOps T) (ord : Orders) (lax : Bool) (we re : Env) (offs : List (MKey × Nat))
    (L : Layout) (all : List IR) (fin : CState) (prog : Program) : Prop where
  lk : Linked ord offs L fin.switches all prog
  err : prog.errors = fin.errors
  methods : ∀ key pair, (key, pair) ∈ fin.started → ∃ body off st2, BodyOf ord lax we re key pair body st2 ∧
    Ext st2 fin ∧ At all off (body ++ [lit .ret noopField]) ∧ findMethod offs key = some off
  coll : fin.collision = false
  narrow : fin.nullNarrow = false
  wOK : NamesOK we
  rOK : NamesOK re
  sizes : SizesOK we
  comm : DefaultsCommute fo

section
variable {ro : ReaderOps R} {fo : FieldOps T} {ord : Orders} {lax : Bool} {we re : Env}
  {offs : List (MKey × Nat)} {L : Layout} {all : List IR} {fin : CState} {prog : Program}

/-- The instructions produced by `rec` do what `S` says. -/
def RecOK (ro : ReaderOps R) (fo : FieldOps T) (all : List IR) (fin : CState) (prog : Program)
    (rec : CState → Ty → Option Ty → CRes) (S : Ty → Option Ty → Sem R T) : Prop :=
  ∀ st w r irs st' p, rec st w r = .ok (irs, st') → Ext st' fin → At all p irs →
    Impl ro fo prog p (p + irLen irs) (S w r)

variable (c : Ctx ro fo ord lax we re offs L all fin prog)
include c

theorem Ctx.lit {p op arg} (h : At all p [lit op arg]) : prog.instrs[p]? = some ⟨op, arg⟩ := by
  obtain ⟨code, h1, h2⟩ := c.lk.code h
  simp only [Verif.lit, IR.toVM, Except.ok.injEq] at h1
  subst h1
  exact h2 0 _ rfl

theorem Ctx.case {p id w b} (h : At all p [.switchCase id w b]) :
    prog.instrs[p]? = some ⟨.jump, (L.swEnd id : Nat)⟩ := by
  obtain ⟨code, h1, h2⟩ := c.lk.code h
  simp only [IR.toVM, Except.ok.injEq] at h1
  subst h1
  exact h2 0 _ rfl

theorem Ctx.call {p key off} (h : At all p [.call key]) (ho : findMethod offs key = some off) :
    prog.instrs[p]? = some ⟨.call, (off : Int)⟩ := by
  obtain ⟨code, h1, h2⟩ := c.lk.code h
  simp only [IR.toVM, ho, Except.ok.injEq] at h1
  subst h1
  exact h2 0 _ rfl

theorem Ctx.block {p id mid} (h : At all p (.blockStart id :: (mid ++ [.blockEnd id]))) :
    BlockCode prog p (p + 9 + irLen mid) := by
  have hs := h.head
  have he := h.tail.right
  simp only [IR.len] at he
  obtain ⟨c1, h1, h2⟩ := c.lk.code hs
  obtain ⟨c2, h3, h4⟩ := c.lk.code he
  simp only [IR.toVM, Except.ok.injEq, c.lk.bStart hs, c.lk.bEnd he] at h1 h3
  subst h1 h3
  exact ⟨h2 0 _ rfl, h2 1 _ rfl, h2 2 _ rfl, h2 3 _ rfl, h2 4 _ rfl, h2 5 _ rfl, h2 6 _ rfl, h2 7 _ rfl,
    h2 8 _ rfl, h4 0 _ rfl, h4 1 _ rfl, h4 2 _ rfl, h4 3 _ rfl, h4 4 _ rfl⟩

theorem Ctx.error {st : CState} {m : Msg} (h : Ext (st.addError m) fin) :
    prog.errors[st.errors.length]? = some m := by
  obtain ⟨l, hl⟩ := h.errors
  rw [c.err, ← hl]
  simp [CState.addError]

theorem Ctx.halt {p} {st : CState} {m} (h : At all p [Verif.lit .halt ((st.errors.length + 1 : Nat) : Int)])
    (he : Ext (st.addError m) fin) (q : Nat) : Impl ro fo prog p q (.fail (.runtime m)) :=
  impl_halt (c.lit h) (c.error he) q

/-- From the end of a case to the end of the switch. -/
theorem Ctx.leave {id q : Nat} {mid : List IR} (hm : mid = [] ∨ ∃ w b rest, mid = .switchCase id w b :: rest)
    (h : At all q (mid ++ [.switchEnd id])) (fr fl) (r : R) (t : T) :
    ∃ fr', Reaches ro fo prog ⟨q, fr, fl, r, t⟩ ⟨q + irLen mid, fr', fl, r, t⟩ := by
  refine ⟨fr, ?_⟩
  rcases hm with rfl | ⟨w, b, rest, rfl⟩
  · exact Reaches.refl _ _ _ _
  · have h1 := c.case (At.head (by simpa using h))
    have h2 := c.lk.swEnd h.right
    rw [h2] at h1
    exact reaches_jump h1 fr fl r t

/-- A switch over the entries of a list. -/
theorem Ctx.switch {α : Type} {id n e p : Nat} {mid : List IR} {m : Msg} {l : List α} {F : α → Sem R T}
    (h : At all p (.switchStart id n (e + 1) :: (mid ++ [.switchEnd id])))
    (hl : l.length = n) (he : prog.errors[e]? = some m)
    (hF : ∀ (j : Nat) a, l[j]? = some a → ∃ pc, At all pc [.switchCase id j false] ∧
      Impl ro fo prog (pc + 1) (p + (2 * n + 1) + irLen mid) (F a)) (fr : Frame) :
    ImplAt ro fo prog p (p + (2 * n + 1) + irLen mid)
      (.pick (atIndex l fr.long) m F) fr := by
  obtain ⟨code, h1, h2⟩ := c.lk.code h.head
  have hs := c.lk.sizes h.mem
  simp only [IR.toVM, Except.ok.injEq] at h1
  subst h1
  have hp := ord.cases_perm id (L.swCases id)
  have hn : (keys (ord.cases id (L.swCases id))).Nodup :=
    by
    have := (hp.map Prod.fst).nodup_iff
    exact this.2 (c.lk.nodup id)
  have hlen : (ord.cases id (L.swCases id)).length = n := by rw [hp.length_eq, c.lk.size hs]
  have hmem : ∀ x, x ∈ ord.cases id (L.swCases id) ↔ x ∈ L.swCases id := fun x => hp.mem_iff
  generalize ord.cases id (L.swCases id) = cs at *
  cases ha : atIndex l fr.long with
  | some a =>
    have hv : fr.long.toInt = (fr.long.toInt.toNat : Int) := by
      unfold atIndex at ha; split at ha
      · omega
      · simp at ha
    have hj : l[fr.long.toInt.toNat]? = some a := by
      unfold atIndex at ha; split at ha
      · exact ha
      · simp at ha
    obtain ⟨pc, h3, h4⟩ := hF _ _ hj
    have h5 := (c.lk.case h3 pc).2 rfl
    intro fl r t
    obtain ⟨fr', -, hr⟩ := dispatch_hit (ro := ro) (fo := fo) cs h2.left hn fr fl r t hv ((hmem _).2 h5)
    obtain ⟨h6, h7⟩ := h4 fr' fl r t
    exact ⟨fun nf r' t' hh => (h6 nf r' t' hh).imp fun _ hx => hr.trans hx, fun e he => hr _ (h7 e he)⟩
  | none =>
    intro fl r t
    have hmiss : ∀ x ∈ cs, fr.long.toInt ≠ (x.1 : Int) := by
      intro x hx heq
      have h3 : x.1 ∈ keys (L.swCases id) := List.mem_map.2 ⟨x, (hmem _).1 hx, rfl⟩
      have h4 := (c.lk.keys hs x.1).1 h3
      unfold atIndex at ha
      rw [if_pos (by omega), heq, Int.toNat_natCast, List.getElem?_eq_none_iff] at ha
      omega
    obtain ⟨fr', -, hr⟩ := dispatch_miss (ro := ro) (fo := fo) cs h2.left fr fl r t hmiss
    have hh := h2.right.get 0 _ rfl
    rw [dispatch_length, Nat.add_zero] at hh
    obtain ⟨h6, h7⟩ := impl_halt (ro := ro) (fo := fo) hh he (p + (2 * n + 1) + irLen mid) fr' fl r t
    exact ⟨fun nf r' t' hh => (h6 nf r' t' hh).imp fun _ hx => hr.trans hx, fun e he => hr _ (h7 e he)⟩

omit c in
/-- The code of the cases of a switch starts with a case. -/
theorem cases_start {Q id i size st irs st'} (h : Emits Q (.cases id i size) st irs st')
    (hn : st'.nullNarrow = false) : irs = [] ∨ ∃ w b rest, irs = .switchCase id w b :: rest := by
  cases h with
  | casesNil => exact .inl rfl
  | case _ _ => exact .inr ⟨_, _, _, rfl⟩
  | caseTwice _ _ => exact .inr ⟨_, _, _, rfl⟩
  | caseLost _ h => have := h.ext.nullNarrow rfl; simp [this] at hn

theorem Ctx.narrow_of {st : CState} (h : Ext st fin) : st.nullNarrow = false := by
  cases hs : st.nullNarrow with
  | false => rfl
  | true => have := h.nullNarrow hs; rw [c.narrow] at this; cases this

theorem Ctx.coll_of {st : CState} (h : Ext st fin) : st.collision = false := by
  cases hs : st.collision with
  | false => rfl
  | true => have := h.collision hs; rw [c.coll] at this; cases this

omit c in
theorem irLen_unionEnter (i : Nat) : irLen (unionEnter i) = 3 := rfl

/-- "SetLong i; Set Long; Enter i; ...; Exit". -/
theorem Ctx.member {p i : Nat} {x : Int} {mid : List IR} {A : Sem R T}
    (h : At all p (unionEnter i ++ mid ++ [Verif.lit .exit x]))
    (ha : Impl ro fo prog (p + 3) (p + 3 + irLen mid) A) :
    Impl ro fo prog p (p + 3 + irLen mid + 1) (.member fo i A) := by
  have h0 : At all p [Verif.lit .setLong i] := h.left.left.head
  have h1 : At all (p + 1) [Verif.lit .set opLong] := (At.tail h.left.left).head
  have h2 : At all (p + 2) [Verif.lit .enter i] := (At.tail (At.tail h.left.left)).head
  have h3 := h.right
  rw [irLen_append, irLen_unionEnter, ← Nat.add_assoc] at h3
  exact (impl_setLong (c.lit h0) (c.lit h1)).seq (impl_field (c.lit h2) ha (c.lit h3))

/-! ### members of a writer union -/

theorem Ctx.unionMember {rec S} (hE : RecEmits Q rec) (hR : RecOK ro fo all fin prog rec S)
    {id i t reader st irs st' p} (h : compileMember we re rec id i t reader st = .ok (irs, st'))
    (hx : Ext st' fin) (ha : At all p irs) :
    ∃ pc, At all pc [.switchCase id i false] ∧
      Impl ro fo prog (pc + 1) (p + irLen irs) (memberSem fo we re S t reader) := by
  have null : ∀ {irs}, irs = [IR.switchCase id i false, Verif.lit .setExitNull noopField] → At all p irs →
      ∃ pc, At all pc [.switchCase id i false] ∧
      Impl ro fo prog (pc + 1) (p + irLen irs) Sem.nullExit := by
    rintro _ rfl ha
    exact ⟨p, ha.head, impl_nullExit (c.lit ha.tail)⟩
  have halt : ∀ {irs m}, irs = [IR.switchCase id i false, Verif.lit .halt ((st.errors.length + 1 : Nat) : Int)] →
      At all p irs → Ext (st.addError m) fin → ∃ pc, At all pc [.switchCase id i false] ∧
      Impl ro fo prog (pc + 1) (p + irLen irs) (.fail (.runtime m)) := by
    rintro _ m rfl ha hx
    exact ⟨p, ha.head, c.halt ha.tail hx _⟩
  unfold compileMember at h
  unfold memberSem
  split at h
  · obtain ⟨mid, hm, rfl⟩ := wrapIR_ok h
    simp only [List.append_nil] at ha ⊢
    refine ⟨p, ha.left, ?_⟩
    have := hR _ _ _ _ _ _ hm hx ha.right
    rw [irLen_append, ← Nat.add_assoc]
    exact this
  · split at h
    · rename_i hf
      simp only [hf]
      split at h
      · rename_i hnull
        simp only [Except.ok.injEq, Prod.mk.injEq] at h
        obtain ⟨rfl, rfl⟩ := h
        simp only [hnull, if_true]
        exact null rfl ha
      · rename_i hnull
        obtain ⟨mid, hm, rfl⟩ := wrapIR_ok h
        simp only [hnull, if_false]
        have h1 : At all (p + 1) ([IR.switchCase id i false] ++ (unionEnter _ ++ mid ++ [Verif.lit .exit noopField])) :=
          At.tail (by simpa using ha)
        refine ⟨p + 1, h1.left, ?_⟩
        have h2 := h1.right
        have := c.member h2 (hR _ _ _ _ _ _ hm hx (by
          have := h2.left.right; rwa [irLen_unionEnter] at this))
        simp only [irLen_append, irLen_unionEnter, irLen, IR.len, Verif.lit] at this ⊢
        rw [show p + (1 + (1 + 0) + 3 + irLen mid + (1 + 0)) = p + 1 + (1 + 0) + 3 + irLen mid + 1 by omega]
        exact this
    · rename_i hf
      simp only [hf]
      split at h
      · rename_i j _ hf'
        simp only [hf']
        split at h
        · rename_i hnull
          simp only [Except.ok.injEq, Prod.mk.injEq] at h
          obtain ⟨rfl, rfl⟩ := h
          simp only [hnull, if_true]
          exact null rfl ha
        · rename_i hnull
          obtain ⟨mid, hm, rfl⟩ := wrapIR_ok h
          simp only [hnull, if_false]
          have h1 : At all p ([IR.switchCase id i false] ++ (unionEnter j ++ mid ++ [Verif.lit .exit noopField])) := by
            simpa using ha
          refine ⟨p, h1.left, ?_⟩
          have h2 := h1.right
          have := c.member h2 (hR _ _ _ _ _ _ hm hx (by
            have := h2.left.right; rwa [irLen_unionEnter] at this))
          refine Eq.mp ?_ this
          congr 1
          simp only [List.cons_append, irLen_append, irLen_unionEnter, irLen, IR.len, Verif.lit]; omega
      · rename_i hf'
        simp only [hf']
        simp only [Except.ok.injEq, Prod.mk.injEq] at h
        obtain ⟨rfl, rfl⟩ := h
        exact halt rfl ha hx
  · split at h
    · rename_i hrd
      split at h
      · simp only [Except.ok.injEq, Prod.mk.injEq] at h
        obtain ⟨rfl, rfl⟩ := h
        have := c.narrow_of hx
        simp at this
      · rename_i hnull
        obtain ⟨mid, hm, rfl⟩ := wrapIR_ok h
        simp only [List.append_nil] at ha ⊢
        refine ⟨p, ha.left, ?_⟩
        have := hR _ _ _ _ _ _ hm hx ha.right
        rw [irLen_append, ← Nat.add_assoc]
        simp only [hrd, hnull, if_true, if_false]
        exact this
    · rename_i hrd
      simp only [Except.ok.injEq, Prod.mk.injEq] at h
      obtain ⟨rfl, rfl⟩ := h
      simp only [hrd, if_false]
      exact halt rfl ha hx

theorem Ctx.unionMembers {rec S} (hE : RecEmits Q rec) (hR : RecOK ro fo all fin prog rec S) {id reader} :
    ∀ {ts i st irs st' p}, compileMembers we re rec id reader i ts st = .ok (irs, st') →
    Ext st' fin → At all p (irs ++ [.switchEnd id]) →
    ∀ (j : Nat) t, ts[j]? = some t → ∃ pc, At all pc [.switchCase id (i + j) false] ∧
      Impl ro fo prog (pc + 1) (p + irLen irs) (memberSem fo we re S t reader) := by
  intro ts
  induction ts with
  | nil => intro i st irs st' p h hx ha j t hj; simp at hj
  | cons t0 ts ih =>
    intro i st irs st' p h hx ha j t hj
    unfold compileMembers at h
    obtain ⟨x, s1, y, h1, h2, rfl⟩ := seqIR_ok h
    have he : Emits Q (.cases id (i + 1) (i + 1 + ts.length)) s1 y st' := emits_members hE _ _ _ _ _ h2
    have ha' : At all p (x ++ (y ++ [.switchEnd id])) := by simpa using ha
    cases j with
    | zero =>
      simp only [List.getElem?_cons_zero, Option.some.injEq] at hj
      subst hj
      obtain ⟨pc, h3, h4⟩ := c.unionMember hE hR h1 (he.ext.trans hx) ha'.left
      refine ⟨pc, h3, ?_⟩
      rw [irLen_append, ← Nat.add_assoc]
      exact h4.before fun fr fl r t => c.leave (cases_start he (c.narrow_of hx)) ha'.right fr fl r t
    | succ j =>
      simp only [List.getElem?_cons_succ] at hj
      obtain ⟨pc, h3, h4⟩ := ih h2 hx ha'.right j t hj
      refine ⟨pc, by rw [show i + (j + 1) = i + 1 + j by omega]; exact h3, ?_⟩
      rw [irLen_append, ← Nat.add_assoc]
      exact h4

theorem Ctx.union {rec S} (hE : RecEmits Q rec) (hR : RecOK ro fo all fin prog rec S)
    {ts reader st irs st' p} (h : compileUnion we re rec ts reader st = .ok (irs, st'))
    (hx : Ext st' fin) (ha : At all p irs) :
    Impl ro fo prog p (p + irLen irs) (unionSem ro fo we re S ts reader) := by
  unfold compileUnion at h
  obtain ⟨mid, hm, rfl⟩ := wrapIR_ok h
  have he : Emits Q (.cases st.switches.length 0 (0 + ts.length)) _ mid st' := emits_members hE _ _ _ _ _ hm
  have ha' : At all p (Verif.lit .read opLong ::
      (IR.switchStart st.switches.length ts.length (st.errors.length + 1) :: (mid ++ [.switchEnd st.switches.length]))) := by
    simpa using ha
  have herr : prog.errors[st.errors.length]? = some Msg.unsupportedUnion :=
    c.error ((ext_addSwitch _ _).trans (he.ext.trans hx))
  have hsw := c.switch (l := ts) (F := fun t => memberSem fo we re S t reader) ha'.tail rfl herr (by
    intro j t hj
    obtain ⟨pc, h1, h2⟩ := c.unionMembers hE hR hm hx (At.tail ha'.tail) j t hj
    exact ⟨pc, by simpa using h1, h2⟩)
  have hlen : p + irLen ([Verif.lit .read opLong, IR.switchStart st.switches.length ts.length (st.errors.length + 1)] ++ mid ++
      [IR.switchEnd st.switches.length]) = p + 1 + (2 * ts.length + 1) + irLen mid := by
    simp only [irLen_append, irLen, IR.len, Verif.lit]; omega
  rw [hlen]
  exact impl_read (upd := fun fr v => { fr with long := v }) (c.lit ha'.head) (fun fr r => rfl)
    fun v fr fl r t => hsw { fr with long := v } fl r t

/-! ### enums -/

theorem Ctx.symbols {id rs d} :
    ∀ {ss i st irs st' p}, compileSymbols id rs d i ss st = .ok (irs, st') →
    Ext st' fin → At all p (irs ++ [.switchEnd id]) →
    ∀ (j : Nat) s, ss[j]? = some s → ∃ pc, At all pc [.switchCase id (i + j) false] ∧
      Impl ro fo prog (pc + 1) (p + irLen irs) (symbolSem fo rs d s) := by
  intro ss
  induction ss with
  | nil => intro i st irs st' p h hx ha j t hj; simp at hj
  | cons s0 ss ih =>
    -- one case, then the rest
    have step : ∀ {i irs1 rest st' p S1}, irs1 = [IR.switchCase id i false] ++ S1 →
        (∃ st1, compileSymbols id rs d (i + 1) ss st1 = .ok (rest, st')) → Ext st' fin →
        At all p ((irs1 ++ rest) ++ [.switchEnd id]) →
        (∀ p, At all p S1 → Impl ro fo prog p (p + irLen S1) (symbolSem fo rs d s0)) →
        ∀ (j : Nat) s, (s0 :: ss)[j]? = some s → ∃ pc, At all pc [.switchCase id (i + j) false] ∧
          Impl ro fo prog (pc + 1) (p + irLen (irs1 ++ rest)) (symbolSem fo rs d s) := by
      rintro i irs1 rest st' p S1 rfl ⟨st1, h2⟩ hx ha hS j s hj
      have he : Emits (fun _ _ _ _ => True) (.cases id (i + 1) (i + 1 + ss.length)) st1 rest st' := emits_symbols _ _ _ _ _ _ _ _ h2
      have ha' : At all p (([IR.switchCase id i false] ++ S1) ++ (rest ++ [.switchEnd id])) := by simpa using ha
      cases j with
      | zero =>
        simp only [List.getElem?_cons_zero, Option.some.injEq] at hj
        subst hj
        refine ⟨p, ha'.left.left, ?_⟩
        have h4 := hS _ ha'.left.right
        rw [irLen_append, irLen_append, ← Nat.add_assoc, ← Nat.add_assoc]
        exact h4.before fun fr fl r t => by
          have := c.leave (cases_start he (c.narrow_of hx)) ha'.right fr fl r t
          rw [irLen_append, ← Nat.add_assoc] at this
          exact this
      | succ j =>
        simp only [List.getElem?_cons_succ] at hj
        obtain ⟨pc, h3, h4⟩ := ih h2 hx ha'.right j s hj
        refine ⟨pc, by rw [show i + (j + 1) = i + 1 + j by omega]; exact h3, ?_⟩
        rw [irLen_append, ← Nat.add_assoc]
        exact h4
    intro i st irs st' p h hx ha
    unfold compileSymbols at h
    split at h
    · rename_i k hk
      obtain ⟨mid, hm, rfl⟩ := wrapIR_ok h
      simp only [List.append_nil] at ha ⊢
      refine step (S1 := [Verif.lit .setInt k, Verif.lit .set opInt]) rfl ⟨_, hm⟩ hx ha ?_
      intro p hp
      unfold symbolSem
      simp only [hk]
      exact impl_setInt (c.lit hp.head) (c.lit hp.tail)
    · rename_i hk
      split at h
      · rename_i hd
        split at h
        · simp at h
        · rename_i k hk'
          obtain ⟨mid, hm, rfl⟩ := wrapIR_ok h
          simp only [List.append_nil] at ha ⊢
          refine step (S1 := [Verif.lit .setInt k, Verif.lit .set opInt]) rfl ⟨_, hm⟩ hx ha ?_
          intro p hp
          unfold symbolSem
          simp only [hk]
          rw [if_pos hd]
          simp only [hk']
          exact impl_setInt (c.lit hp.head) (c.lit hp.tail)
      · rename_i hd
        obtain ⟨mid, hm, rfl⟩ := wrapIR_ok h
        simp only [List.append_nil] at ha ⊢
        refine step (S1 := [Verif.lit .halt ((st.errors.length + 1 : Nat) : Int)]) rfl ⟨_, hm⟩ hx ha ?_
        intro p hp
        unfold symbolSem
        simp only [hk]
        rw [if_neg hd]
        have he : Emits (fun _ _ _ _ => True) (.cases id (i + 1) (i + 1 + ss.length)) _ mid st' := emits_symbols _ _ _ _ _ _ _ _ hm
        exact c.halt hp (he.ext.trans hx) _

theorem Ctx.enum {ss reader st irs st' p} (h : compileEnum ss reader st = .ok (irs, st'))
    (hx : Ext st' fin) (ha : At all p irs) :
    Impl ro fo prog p (p + irLen irs) (enumSem ro fo ss reader) := by
  unfold compileEnum at h
  unfold enumSem
  cases reader with
  | none =>
    simp only [Except.ok.injEq, Prod.mk.injEq] at h
    obtain ⟨rfl, rfl⟩ := h
    exact impl_read_skip (upd := fun fr v => { fr with long := v }) (c.lit ha) fun fr r => rfl
  | some x =>
    obtain ⟨rs, d⟩ := x
    simp only at h
    obtain ⟨mid, hm, rfl⟩ := wrapIR_ok h
    have he : Emits (fun _ _ _ _ => True) (.cases st.switches.length 0 (0 + ss.length)) _ mid st' := emits_symbols _ _ _ _ _ _ _ _ hm
    have ha' : At all p (Verif.lit .read opLong ::
        (IR.switchStart st.switches.length ss.length (st.errors.length + 1) :: (mid ++ [.switchEnd st.switches.length]))) := by
      simpa using ha
    have herr : prog.errors[st.errors.length]? = some Msg.unexpectedEnum :=
      c.error ((ext_addSwitch _ _).trans (he.ext.trans hx))
    have hsw := c.switch (l := ss) (F := fun s => symbolSem fo rs d s) ha'.tail rfl herr (by
      intro j t hj
      obtain ⟨pc, h1, h2⟩ := c.symbols hm hx (At.tail ha'.tail) j t hj
      exact ⟨pc, by simpa using h1, h2⟩)
    have hlen : p + irLen ([Verif.lit .read opLong, IR.switchStart st.switches.length ss.length (st.errors.length + 1)] ++ mid ++
        [IR.switchEnd st.switches.length]) = p + 1 + (2 * ss.length + 1) + irLen mid := by
      simp only [irLen_append, irLen, IR.len, Verif.lit]; omega
    rw [hlen]
    exact impl_read (upd := fun fr v => { fr with long := v }) (c.lit ha'.head) (fun fr r => rfl)
      fun v fr fl r t => hsw { fr with long := v } fl r t

/-! ### fixed and primitives -/

omit c in
theorem doRead_fixed {size : Int} (h : 0 ≤ size) (fr : Frame) (r : R) :
    doRead ro (11 + size) fr r = mapOk (fun v => { fr with bytes := v }) (readFixed ro size r) := by
  unfold doRead
  simp only [opNull, opBoolean, opInt, opLong, opUnusedLong, opFloat, opDouble, opBytes, opString]
  have e1 : ¬ (11 + size = 1) := by omega
  have e2 : ¬ (11 + size = 2) := by omega
  have e3 : ¬ (11 + size = 3) := by omega
  have e4 : ¬ (11 + size = 4) := by omega
  have e5 : ¬ (11 + size = 5) := by omega
  have e6 : ¬ (11 + size = 6) := by omega
  have e7 : ¬ (11 + size = 7) := by omega
  have e8 : ¬ (11 + size = 8) := by omega
  have e10 : ¬ (11 + size = 10) := by omega
  simp only [e1, e2, e3, e4, e5, e6, e7, e8, e10, if_false]
  rw [show (11 + size - 11 : Int) = size by omega]

theorem Ctx.fixed {size : Int} {b p} (h0 : 0 ≤ size) (ha : At all p (compileFixed size b)) :
    Impl ro fo prog p (p + irLen (compileFixed size b)) (fixedSem ro fo size b) := by
  have e : fixedSem ro fo size b = Sem.read (readFixed ro size) fun v =>
      if b then .act fun t => fo.setBytes t v else .skip := by
    funext r t
    unfold fixedSem Sem.read
    rw [doRead_fixed h0]
    cases hx : readFixed ro size r with
    | error e => rfl
    | ok y =>
      obtain ⟨v, r'⟩ := y
      cases b <;> rfl
  rw [e]
  cases b with
  | false =>
    simp only [compileFixed, Bool.false_eq_true, if_false] at ha ⊢
    exact impl_read_skip (upd := fun fr v => { fr with bytes := v }) (c.lit ha) (fun fr r => doRead_fixed h0 fr r)
  | true =>
    simp only [compileFixed, if_true] at ha ⊢
    refine impl_read (upd := fun fr v => { fr with bytes := v }) (c.lit ha.head) (fun fr r => doRead_fixed h0 fr r) ?_
    intro v fr fl r t
    obtain ⟨h1, h2⟩ := impl_set_after (ro := ro) (c.lit ha.tail) { fr with bytes := v } fl r t
      (f := fun t => fo.setBytes t v) rfl
    exact ⟨fun nf r' t' hh => ⟨_, h1 nf r' t' hh⟩, h2⟩

theorem Ctx.prim {α : Type} {arg : Int} {rd : R → Except Err (α × R)} {upd : Frame → α → Frame}
    {set : T → α → Except Err T} {r : Option Ty} {p : Nat} (ha : At all p (compilePrim arg r))
    (hr : ∀ fr r, doRead ro arg fr r = mapOk (upd fr) (rd r))
    (hs : ∀ fr a t, doSet fo arg (upd fr a) t = set t a) :
    Impl ro fo prog p (p + irLen (compilePrim arg r)) (.prim rd set r) := by
  cases r with
  | none => exact impl_prim_none (c.lit ha) hr
  | some ty => exact impl_prim_some (c.lit ha.head) (c.lit ha.tail) hr hs

/-! ### records -/

omit c in
theorem defaultsSem_perm (hc : DefaultsCommute fo) {l l' : List (Nat × Field)} (h : l.Perm l') :
    (defaultsSem fo l : Sem R T) = defaultsSem fo l' := by
  induction h with
  | nil => rfl
  | cons x _ ih => obtain ⟨i, f⟩ := x; simp only [defaultsSem, ih]
  | swap x y l =>
    obtain ⟨i, f⟩ := x
    obtain ⟨j, g⟩ := y
    funext r t
    have := hc t j i
    simp only [defaultsSem, Sem.seq, Sem.act]
    cases h1 : fo.setDefault t j with
    | error e =>
      cases h2 : fo.setDefault t i with
      | error e' => simp only [h1, h2, Except.bind] at this; simp at this; simp [this]
      | ok t2 =>
        simp only [h1, h2, Except.bind] at this
        simp [← this]
    | ok t1 =>
      cases h2 : fo.setDefault t i with
      | error e' =>
        simp only [h1, h2, Except.bind] at this
        simp [this]
      | ok t2 =>
        simp only [h1, h2, Except.bind] at this
        simp only [this]
  | trans _ _ h1 h2 => exact h1.trans h2

theorem Ctx.defaults : ∀ {l st irs st' p}, compileDefaults l st = .ok (irs, st') → At all p irs →
    Impl ro fo prog p (p + irLen irs) (defaultsSem fo l) := by
  intro l
  induction l with
  | nil =>
    intro st irs st' p h ha
    simp only [compileDefaults, Except.ok.injEq, Prod.mk.injEq] at h
    obtain ⟨rfl, rfl⟩ := h
    exact Impl.skip p
  | cons x l ih =>
    obtain ⟨i, f⟩ := x
    intro st irs st' p h ha
    unfold compileDefaults at h
    split at h
    · simp at h
    · obtain ⟨mid, hm, rfl⟩ := wrapIR_ok h
      simp only [List.append_nil] at ha ⊢
      have := ih hm ha.right
      rw [irLen_append, ← Nat.add_assoc]
      exact (impl_setDefault (c.lit ha.left)).seq this

theorem Ctx.fields {rec S reader} (hE : RecEmits Q rec) (hR : RecOK ro fo all fin prog rec S) :
    ∀ {wfs st irs st' p}, compileFields we re rec reader wfs st = .ok (irs, st') → Ext st' fin →
    At all p irs → Impl ro fo prog p (p + irLen irs) (fieldsSem fo we re S reader wfs) := by
  intro wfs
  induction wfs with
  | nil =>
    intro st irs st' p h hx ha
    simp only [compileFields, Except.ok.injEq, Prod.mk.injEq] at h
    obtain ⟨rfl, rfl⟩ := h
    exact Impl.skip p
  | cons w wfs ih =>
    intro st irs st' p h hx ha
    unfold compileFields at h
    unfold fieldsSem
    split at h
    · rename_i hf
      simp only [hf]
      obtain ⟨x, s1, y, h1, h2, rfl⟩ := seqIR_ok h
      have he : Emits Q .code s1 y st' := emits_fields hE _ _ _ _ h2
      rw [irLen_append, ← Nat.add_assoc]
      exact (hR _ _ _ _ _ _ h1 (he.ext.trans hx) ha.left).seq (ih h2 hx ha.right)
    · rename_i i rf hf
      simp only [hf]
      split at h
      · rename_i hread
        rw [if_pos hread]
        obtain ⟨x, s1, y, h1, h2, rfl⟩ := seqIR_ok h
        obtain ⟨mid, hm, rfl⟩ := wrapIR_ok h1
        have he : Emits Q .code s1 y st' := emits_fields hE _ _ _ _ h2
        have ha1 := ha.left
        have h3 := hR _ _ _ _ _ _ hm (he.ext.trans hx) ha1.left.right
        have h4 := ih h2 hx ha.right
        have h5 := impl_field (c.lit ha1.left.left) h3 (by
          have := c.lit ha1.right
          rw [irLen_append, ← Nat.add_assoc] at this
          exact this)
        simp only [irLen_append, irLen, IR.len, Verif.lit] at h4 h5 ⊢
        refine h5.seq ?_
        rw [show p + (1 + 0) + irLen mid + 1 = p + (1 + 0 + irLen mid + (1 + 0)) by omega,
          show p + (1 + 0 + irLen mid + (1 + 0) + irLen y) = p + (1 + 0 + irLen mid + (1 + 0)) + irLen y by omega]
        exact h4
      · simp at h

theorem Ctx.record {rec S k wfs reader} (hE : RecEmits Q rec) (hR : RecOK ro fo all fin prog rec S)
    {st irs st' p} (h : compileRecord ord we re rec k wfs reader st = .ok (irs, st')) (hx : Ext st' fin)
    (ha : At all p irs) :
    Impl ro fo prog p (p + irLen irs) (.seq (fieldsSem fo we re S reader wfs)
      (defaultsSem fo (match (generalizing := false) reader with | none => [] | some rfs => missingFields wfs rfs))) := by
  unfold compileRecord at h
  obtain ⟨x, s1, y, h1, h2, rfl⟩ := seqIR_ok h
  have he : Emits Q .code s1 y st' := emits_defaults _ _ _ _ h2
  rw [irLen_append, ← Nat.add_assoc]
  refine (c.fields hE hR h1 (he.ext.trans hx) ha.left).seq ?_
  have h3 := c.defaults h2 ha.right
  refine h3.congr (defaultsSem_perm c.comm ?_)
  cases reader with
  | none => exact .refl _
  | some rfs => exact ord.defaults_perm _ _

theorem Ctx.callMethod {S} (hR : ∀ m, RecOK ro fo all fin prog (compileType ord lax we re m) S)
    {key pair wfs reader p} (hmem : (key, pair) ∈ fin.started) (hp : PairOf we re pair wfs reader)
    (ha : At all p [.call key]) :
    Impl ro fo prog p (p + 1) (recordSem fo we re S wfs reader) := by
  obtain ⟨body, off, st2, ⟨m, wfs', reader', k, st1, hp', hc⟩, hx, hat, ho⟩ := c.methods key pair hmem
  have hw : wfs' = wfs := by
    obtain ⟨⟨q, wd, h1, h2, h3⟩, -⟩ := hp
    obtain ⟨⟨q', wd', h1', h2', h3'⟩, -⟩ := hp'
    have := c.wOK _ _ _ _ h1 h1' (h2.trans h2'.symm)
    subst this
    rw [h3] at h3'
    simpa using h3'.symm
  have hr : reader' = reader := by
    obtain ⟨-, hp⟩ := hp
    obtain ⟨-, hp'⟩ := hp'
    rcases hp with ⟨h1, h2⟩ | ⟨q, rd, rfs, h1, h2, h3, h4⟩
    · rcases hp' with ⟨h1', h2'⟩ | ⟨q', rd', rfs', h1', h2', h3', h4'⟩
      · rw [h2, h2']
      · rw [h1] at h2'; cases h2'
    · rcases hp' with ⟨h1', h2'⟩ | ⟨q', rd', rfs', h1', h2', h3', h4'⟩
      · rw [h2] at h1'; cases h1'
      · rw [h2] at h2'
        simp only [Option.some.injEq] at h2'
        have := c.rOK _ _ _ _ h1 h1' h2'
        subst this
        rw [h3] at h3'
        simp only [DefKind.record.injEq] at h3'
        rw [h4, h4', h3']
  subst hw hr
  have h1 := c.record (emits_type ord lax we re m) (hR m) hc hx hat.left
  exact impl_call (c.call ha ho) h1 (c.lit hat.right)

theorem Ctx.callRecord {S m} (hR : ∀ m, RecOK ro fo all fin prog (compileType ord lax we re m) S)
    {key pair wfs reader st irs st' p} (hp : PairOf we re pair wfs reader)
    (h : compileCall ord we re (compileType ord lax we re m) key pair wfs reader st = .ok (irs, st'))
    (hx : Ext st' fin) (ha : At all p irs) :
    Impl ro fo prog p (p + irLen irs) (recordSem fo we re S wfs reader) := by
  unfold compileCall at h
  split at h
  · rename_i pair' hf
    simp only [Except.ok.injEq, Prod.mk.injEq] at h
    obtain ⟨rfl, rfl⟩ := h
    have h1 := c.coll_of hx
    simp only [Bool.or_eq_false_iff, decide_eq_false_iff_not, Decidable.not_not, ne_eq] at h1
    have h2 := h1.2
    subst h2
    exact c.callMethod hR (hx.started.subset (findMethod_some hf)) hp ha
  · split at h
    · simp at h
    · rename_i body st2 hb
      simp only [Except.ok.injEq, Prod.mk.injEq] at h
      obtain ⟨rfl, rfl⟩ := h
      have he := (emits_record (emits_type ord lax we re m) hb).ext
      exact c.callMethod hR (hx.started.subset (he.started.subset (by simp))) hp ha

theorem Ctx.def {S m} (hR : ∀ m, RecOK ro fo all fin prog (compileType ord lax we re m) S)
    {q wd rd st irs st' p} (hw : we.find q = some wd) (hr : ∀ d, rd = some d → ∃ q', re.find q' = some d)
    (h : compileDef ord we re (compileType ord lax we re m) wd rd st = .ok (irs, st'))
    (hx : Ext st' fin) (ha : At all p irs) :
    Impl ro fo prog p (p + irLen irs) (defSem ro fo we re S wd rd) := by
  unfold compileDef at h
  unfold defSem
  split at h
  · rename_i wfs hk hk'
    simp only [hk, hk']
    exact c.callRecord hR ⟨⟨q, wd, hw, rfl, hk⟩, .inl ⟨rfl, rfl⟩⟩ h hx ha
  · rename_i wfs rfs hk hk'
    simp only [hk, hk']
    refine c.callRecord hR ?_ h hx ha
    cases rd with
    | none => simp at hk'
    | some d =>
      obtain ⟨q', hq'⟩ := hr d rfl
      simp only [Option.map_some, Option.some.injEq] at hk'
      exact ⟨⟨q, wd, hw, rfl, hk⟩, .inr ⟨q', d, rfs, hq', rfl, hk', rfl⟩⟩
  · rename_i n hk hk'
    simp only [hk, hk']
    simp only [Except.ok.injEq, Prod.mk.injEq] at h
    obtain ⟨rfl, rfl⟩ := h
    exact c.fixed (c.sizes _ _ _ hw hk) ha
  · rename_i n _ hk hk'
    simp only [hk, hk']
    simp only [Except.ok.injEq, Prod.mk.injEq] at h
    obtain ⟨rfl, rfl⟩ := h
    exact c.fixed (c.sizes _ _ _ hw hk) ha
  · rename_i hk hk'
    simp only [hk, hk']
    exact c.enum h hx ha
  · rename_i hk hk'
    simp only [hk, hk']
    exact c.enum h hx ha
  · simp at h

theorem Ctx.ref {S m} (hR : ∀ m, RecOK ro fo all fin prog (compileType ord lax we re m) S)
    {q q' st irs st' p}
    (h : compileRef ord lax we re (compileType ord lax we re m) q q' st = .ok (irs, st'))
    (hx : Ext st' fin) (ha : At all p irs) :
    Impl ro fo prog p (p + irLen irs) (refSem ro fo we re lax S q q') := by
  unfold compileRef at h
  unfold refSem
  split at h
  · simp at h
  · rename_i hw
    simp only [hw]
    split at h
    · exact c.def hR hw (by simp) h hx ha
    · split at h
      · simp at h
      · rename_i hr
        simp only [hr]
        split at h
        · rename_i hl
          rw [if_pos hl]
          exact c.def hR hw (fun d hd => by cases hd; exact ⟨_, hr⟩) h hx ha
        · simp at h

/-! ### everything -/

theorem Ctx.body {S m n} (hR : ∀ m, RecOK ro fo all fin prog (compileType ord lax we re m) S)
    {w r st irs st' p}
    (h : compileBody ord lax we re (compileType ord lax we re m) w r st = .ok (irs, st'))
    (hx : Ext st' fin) (ha : At all p irs) :
    Impl ro fo prog p (p + irLen irs) (bodySem ro fo we re lax n S w r) := by
  have hE := emits_type ord lax we re m
  unfold compileBody at h
  unfold bodySem
  cases w <;> simp only at h ⊢
  case null =>
    simp only [Except.ok.injEq, Prod.mk.injEq] at h; obtain ⟨rfl, rfl⟩ := h; exact Impl.skip p
  case bool =>
    simp only [Except.ok.injEq, Prod.mk.injEq] at h; obtain ⟨rfl, rfl⟩ := h
    exact c.prim (upd := fun fr v => { fr with boolean := v }) ha (fun _ _ => rfl) (fun _ _ _ => rfl)
  case int =>
    simp only [Except.ok.injEq, Prod.mk.injEq] at h; obtain ⟨rfl, rfl⟩ := h
    exact c.prim (upd := fun fr v => { fr with int := v }) ha (fun _ _ => rfl) (fun _ _ _ => rfl)
  case long =>
    simp only [Except.ok.injEq, Prod.mk.injEq] at h; obtain ⟨rfl, rfl⟩ := h
    exact c.prim (upd := fun fr v => { fr with long := v }) ha (fun _ _ => rfl) (fun _ _ _ => rfl)
  case float =>
    simp only [Except.ok.injEq, Prod.mk.injEq] at h; obtain ⟨rfl, rfl⟩ := h
    exact c.prim (upd := fun fr v => { fr with float := v }) ha (fun _ _ => rfl) (fun _ _ _ => rfl)
  case double =>
    simp only [Except.ok.injEq, Prod.mk.injEq] at h; obtain ⟨rfl, rfl⟩ := h
    exact c.prim (upd := fun fr v => { fr with double := v }) ha (fun _ _ => rfl) (fun _ _ _ => rfl)
  case bytes =>
    simp only [Except.ok.injEq, Prod.mk.injEq] at h; obtain ⟨rfl, rfl⟩ := h
    exact c.prim (upd := fun fr v => { fr with bytes := v }) ha (fun _ _ => rfl) (fun _ _ _ => rfl)
  case string =>
    simp only [Except.ok.injEq, Prod.mk.injEq] at h; obtain ⟨rfl, rfl⟩ := h
    exact c.prim (upd := fun fr v => { fr with string := v }) ha (fun _ _ => rfl) (fun _ _ _ => rfl)
  case union => exact c.union hE (hR m) h hx ha
  case array wi =>
    split at h
    · obtain ⟨mid, hm, rfl⟩ := wrapIR_ok h
      have ha' : At all p (.blockStart st.blocks :: (mid ++ [.blockEnd st.blocks])) := by simpa using ha
      have h1 := impl_blocks (c.block ha') (hR m _ _ _ _ _ _ hm hx (At.tail ha').left) n
      simp only [irLen_append, irLen, IR.len] at h1 ⊢
      simpa [Nat.add_assoc, irLen] using h1
    · obtain ⟨mid, hm, rfl⟩ := wrapIR_ok h
      have ha' : At all p (.blockStart st.blocks :: ((Verif.lit .appendArray opUnused :: (mid ++ [Verif.lit .exit opUnused]))
        ++ [.blockEnd st.blocks])) := by simpa using ha
      have h2 := (At.tail ha').left
      have h3 := hR m _ _ _ _ _ _ hm hx h2.tail.left
      have h4 := impl_item (c.lit h2.head) h3 (c.lit h2.tail.right)
      have h1 := impl_blocks (q := p + 9 + 1 + irLen mid + 1) (by
        have := c.block ha'
        simp only [irLen, irLen_append, IR.len, Verif.lit] at this
        rw [show p + 9 + 1 + irLen mid + 1 = p + 9 + (1 + (irLen mid + (1 + 0))) by omega]
        exact this) h4 n
      refine Eq.mp ?_ h1
      congr 1
      simp [irLen_append, irLen, IR.len, Verif.lit]; omega
    · simp at h
  case map wi =>
    split at h
    · obtain ⟨mid, hm, rfl⟩ := wrapIR_ok h
      have ha' : At all p (.blockStart st.blocks :: ((Verif.lit .read opString :: mid) ++ [.blockEnd st.blocks])) := by simpa using ha
      have h2 := (At.tail ha').left
      have h1 := impl_blocks (c.block ha') (A := .read (readString ro) fun _ => S wi none) (by
        have := impl_key_skip (c.lit h2.head) (hR m _ _ _ _ _ _ hm hx h2.tail)
        simp only [irLen, IR.len, Verif.lit]
        rw [← Nat.add_assoc]
        exact this) n
      refine Eq.mp ?_ h1
      congr 1
      simp [irLen_append, irLen, IR.len, Verif.lit]; omega
    · obtain ⟨mid, hm, rfl⟩ := wrapIR_ok h
      have ha' : At all p (.blockStart st.blocks :: ((Verif.lit .read opString :: (Verif.lit .appendMap opUnused :: (mid ++ [Verif.lit .exit opUnused])))
        ++ [.blockEnd st.blocks])) := by simpa using ha
      have h2 := (At.tail ha').left
      have h3 := hR m _ _ _ _ _ _ hm hx h2.tail.tail.left
      have h4 := impl_entry (c.lit h2.head) (c.lit h2.tail.head) h3 (c.lit h2.tail.tail.right)
      have h1 := impl_blocks (q := p + 9 + 1 + 1 + irLen mid + 1) (by
        have := c.block ha'
        simp only [irLen, irLen_append, IR.len, Verif.lit] at this
        rw [show p + 9 + 1 + 1 + irLen mid + 1 = p + 9 + (1 + (1 + (irLen mid + (1 + 0)))) by omega]
        exact this) h4 n
      refine Eq.mp ?_ h1
      congr 1
      simp [irLen_append, irLen, IR.len, Verif.lit]; omega
    · simp at h
  case ref q =>
    split at h
    · exact c.ref hR h hx ha
    · exact c.ref hR h hx ha
    · simp at h

/-- The instructions compiled for a pair of types do what `interp` says. -/
theorem Ctx.type : ∀ n m, RecOK ro fo all fin prog (compileType ord lax we re m) (interp ro fo we re lax n) := by
  intro n
  induction n with
  | zero =>
    intro m st w r irs st' p h hx ha fr fl rr t
    exact ⟨fun _ _ _ hh => by simp [interp] at hh, fun _ hh => by simp [interp] at hh⟩
  | succ n ih =>
    intro m st w r irs st' p h hx ha
    cases m with
    | zero => simp [compileType] at h
    | succ m =>
      unfold compileType at h
      unfold interp
      split at h
      · rename_i rs hu
        split at h
        · rename_i i r' hf
          obtain ⟨mid, hm, rfl⟩ := wrapIR_ok h
          simp only [hu, hf]
          have := c.member ha (ih m _ _ _ _ _ _ hm hx (by
            have := ha.left.right; rwa [irLen_unionEnter] at this))
          refine Eq.mp ?_ this
          congr 1
          simp [irLen_append, irLen, IR.len, Verif.lit, irLen_unionEnter]; omega
        · simp at h
      · rename_i hne
        have hb := c.body (n := n) ih h hx ha
        split
        · rename_i rs hu
          exact absurd rfl (hne _ hu)
        · exact hb
end

/-! ### the whole program -/

theorem methodOffsets_at {k b} : ∀ (ms : List (MKey × List IR)) (pre : List IR), (k, b) ∈ ms →
    ∃ off, (k, off) ∈ methodOffsets (irLen pre) ms ∧
      At (pre ++ concatMethods ms) off (b ++ [lit .ret noopField]) := by
  intro ms
  induction ms with
  | nil => intro pre h; simp at h
  | cons x ms ih =>
    obtain ⟨k', b'⟩ := x
    intro pre h
    rcases List.mem_cons.1 h with h | h
    · simp only [Prod.mk.injEq] at h
      obtain ⟨rfl, rfl⟩ := h
      exact ⟨irLen pre, by simp [methodOffsets], pre, concatMethods ms, by simp [concatMethods], rfl⟩
    · obtain ⟨off, h1, h2⟩ := ih (pre ++ (b' ++ [lit .ret noopField])) h
      refine ⟨off, ?_, ?_⟩
      · simp only [methodOffsets, List.mem_cons]
        right
        simpa [irLen_append, irLen, IR.len, lit, Nat.add_assoc] using h1
      · simpa [concatMethods] using h2

theorem methodOffsets_keys : ∀ (ms : List (MKey × List IR)) (off : Nat),
    (methodOffsets off ms).map (·.1) = ms.map (·.1) := by
  intro ms
  induction ms with
  | nil => intro off; rfl
  | cons x ms ih => intro off; obtain ⟨k, b⟩ := x; simp [methodOffsets, ih]

/-- The state `compile` ends in, with the program linked from it, is such a context. -/
theorem ctx_of_compile (ro : ReaderOps R) (fo : FieldOps T) {ord : Orders} {lax : Bool} {w r : Schema} {m main st prog}
    (hw : NamesOK w.env) (hr : NamesOK r.env) (hs : SizesOK w.env) (hf : DefaultsCommute fo)
    (h : compileType ord lax w.env r.env m {} w.root (some r.root) = .ok (main, st))
    (hc : st.collision = false) (hn : st.nullNarrow = false)
    (hl : linkProgram ord main st = .ok prog) :
    Ctx ro fo ord lax w.env r.env (methodOffsets (irLen main + 1) (ord.methods st.bodies))
      (findOffsets {} 0 (allIR ord main st)) (allIR ord main st) st prog := by
  have he := emits_type ord lax w.env r.env m _ _ _ _ _ h
  obtain ⟨lk, her⟩ := linked he hn hl
  refine ⟨lk, her, ?_, hc, hn, hw, hr, hs, hf⟩
  have ht := he.table (st := {}) ⟨by simp, by intro k b hb; simp at hb⟩
  obtain ⟨S, B, h1, h2, h3⟩ := he.finishes
  simp only [List.nil_append] at h1 h2
  intro key pair hmem
  have hk : key ∈ st.bodies.map (·.1) := by
    rw [h2]
    refine h3.mem_iff.1 ?_
    rw [← h1]
    exact List.mem_map.2 ⟨_, hmem, rfl⟩
  obtain ⟨⟨k, body⟩, hb, rfl⟩ := List.mem_map.1 hk
  obtain ⟨pair', st2, h4, h5, h6⟩ := ht.body _ _ hb
  have : pair' = pair := by
    have e1 := findMethod_unique ht.nodup h4
    have e2 := findMethod_unique ht.nodup hmem
    rw [e1] at e2
    simpa using e2
  subst this
  have hb' : (k, body) ∈ ord.methods st.bodies := (ord.methods_perm _).mem_iff.2 hb
  obtain ⟨off, h7, h8⟩ := methodOffsets_at (ord.methods st.bodies) (main ++ [lit .halt 0]) hb'
  have e : irLen (main ++ [lit .halt 0]) = irLen main + 1 := by simp [irLen_append, irLen, IR.len, lit]
  rw [e] at h7
  refine ⟨body, off, st2, h5, h6, h8, findMethod_unique ?_ h7⟩
  rw [methodOffsets_keys, ((ord.methods_perm st.bodies).map _).nodup_iff, h2]
  have hnd := ht.nodup
  rw [h1] at hnd
  exact (h3.nodup_iff).1 hnd

/-- Running the compiled program from the start. -/
theorem run_compiled (ro : ReaderOps R) (fo : FieldOps T) {ord : Orders} {lax : Bool} {w r : Schema} {m main st prog}
    (hw : NamesOK w.env) (hr : NamesOK r.env) (hs : SizesOK w.env) (hf : DefaultsCommute fo)
    (h : compileType ord lax w.env r.env m {} w.root (some r.root) = .ok (main, st))
    (hc : st.collision = false) (hn : st.nullNarrow = false)
    (hl : linkProgram ord main st = .ok prog) (n : Nat) (rd : R) (t : T) :
    (∀ f rd' t', interp ro fo w.env r.env lax n w.root (some r.root) rd t = .done (f, rd', t') →
      Evaluates ro fo prog rd t (.ok (rd', t'))) ∧
    (∀ e, interp ro fo w.env r.env lax n w.root (some r.root) rd t = .err e →
      Evaluates ro fo prog rd t (.error e)) := by
  have c := ctx_of_compile ro fo hw hr hs hf h hc hn hl
  have hat : At (allIR ord main st) 0 (main ++ [lit .halt 0]) := ⟨[], _, rfl, rfl⟩
  obtain ⟨h1, h2⟩ := c.type n m _ _ _ _ _ _ h (Ext.refl _) hat.left {} false rd t
  constructor
  · intro f rd' t' hi
    obtain ⟨fr', hre⟩ := h1 f rd' t' hi
    have hh := c.lit hat.right
    have : Evals ro fo prog ⟨0 + irLen main, fr', false || f, rd', t'⟩ (.done ⟨false, 0 + irLen main, rd', t'⟩) :=
      evals_of_step _ _ _ (by simp) (by simp only [ev, evalInner, hh, if_true])
    obtain ⟨-, fuel, hfu⟩ := hre _ this
    exact ⟨fuel, by simp only [ev] at hfu; simp only [evalProg, hfu]⟩
  · intro e hi
    obtain ⟨-, fuel, hfu⟩ := h2 e hi
    exact ⟨fuel, by simp only [ev] at hfu; simp only [evalProg, hfu]⟩
end Verif
