import Verif.Compiler.Emits
/-
Identifiers occur once; `findOffsets` finds where.
-/
set_option linter.unusedSimpArgs false
set_option linter.unusedVariables false
namespace Verif
section
variable {Q : BodyPred}

/-- Occurrences in the finished bodies. -/
def bodyCount (P : IR → Bool) (st : CState) : Nat := (st.bodies.flatMap (·.2)).countP P

def isBS (b : Nat) : IR → Bool | .blockStart i => i == b | _ => false
def isBE (b : Nat) : IR → Bool | .blockEnd i => i == b | _ => false
def isSS (s : Nat) : IR → Bool | .switchStart i _ _ => i == s | _ => false
def isSE (s : Nat) : IR → Bool | .switchEnd i => i == s | _ => false
def isSC (s w : Nat) : IR → Bool | .switchCase i j false => i == s && j == w | _ => false

theorem Emits.cases_le {m st irs st'} (h : Emits Q m st irs st') :
    ∀ id i size, m = .cases id i size → i ≤ size := by
  induction h with
  | casesNil => intro id i size h; cases h; exact Nat.le_refl _
  | case _ _ _ ih => intro id i size h; cases h; have := ih _ _ _ rfl; omega
  | caseTwice _ _ _ ih => intro id i size h; cases h; have := ih _ _ _ rfl; omega
  | caseLost _ _ ih => intro id i size h; cases h; have := ih _ _ _ rfl; omega
  | _ => intro id i size h; cases h

/-- A way of counting: `P` marks instructions, `w st` is how many marks a state has
given out, `g` how many the remaining cases of a switch will give. -/
structure Counting (P : IR → Bool) (w : CState → Nat) (g : Mode → Nat) : Prop where
  lit : ∀ i, P (.lit i) = false
  call : ∀ k, P (.call k) = false
  again : ∀ s i, P (.switchCase s i true) = false
  code : g .code = 0
  addError : ∀ st m, w (st.addError m) = w st
  collision : ∀ st c, w { st with collision := c } = w st
  started : ∀ st l, w { st with started := l } = w st
  bodies : ∀ st l, w { st with bodies := l } = w st
  block : ∀ st : CState, (if P (.blockStart st.blocks) then 1 else 0) +
    (if P (.blockEnd st.blocks) then 1 else 0) + w st = w st.addBlock
  switch : ∀ (st : CState) size e, (if P (.switchStart st.switches.length size e) then 1 else 0) +
    (if P (.switchEnd st.switches.length) then 1 else 0) + g (.cases st.switches.length 0 size) + w st =
      w (st.addSwitch size)
  casesNil : ∀ id i, g (.cases id i i) = 0
  case : ∀ id i size, i < size → g (.cases id i size) =
    (if P (.switchCase id i false) then 1 else 0) + g (.cases id (i + 1) size)

theorem Emits.count {P w g} (c : Counting P w g) {m st irs st'} (h : Emits Q m st irs st')
    (hn : st'.nullNarrow = false) :
    irs.countP P + bodyCount P st' + w st = bodyCount P st + w st' + g m := by
  induction h with
  | nil => simp [c.code]
  | lit => simp [c.code, Verif.lit, c.lit]
  | halt => simp [c.code, Verif.lit, c.lit, c.addError, bodyCount, CState.addError]
            exact (c.addError _ _).symm
  | @seq st a st1 b st2 h1 h2 i1 i2 =>
    have hn1 : st1.nullNarrow = false := by
      cases hx : st1.nullNarrow with
      | false => rfl
      | true => rw [h2.ext.nullNarrow hx] at hn; exact absurd hn (by simp)
    have := i1 hn1
    have := i2 hn
    rw [List.countP_append]
    simp only [c.code] at *
    omega
  | @block st a st' h1 i1 =>
    have := i1 hn
    have hb := c.block st
    simp only [List.countP_cons, List.countP_append, List.countP_nil, c.code] at this ⊢
    have e1 : bodyCount P st.addBlock = bodyCount P st := rfl
    omega
  | @switch st m size a st' h1 i1 =>
    have := i1 hn
    have hb := c.switch (st.addError m) size (st.errors.length + 1)
    have he := c.addError st m
    have e1 : bodyCount P ((st.addError m).addSwitch size) = bodyCount P st := rfl
    have e2 : (st.addError m).switches.length = st.switches.length := rfl
    simp only [List.countP_cons, List.countP_append, List.countP_nil, c.code] at this ⊢
    rw [e2] at hb
    omega
  | @callOld st key pair c' hf hc =>
    simp only [List.countP_cons, List.countP_nil, c.call, c.code]
    have e1 : bodyCount P { st with collision := c' } = bodyCount P st := rfl
    have := c.collision st c'
    simp only [e1, this]
    simp
  | @callNew st key pair body st' hf h1 hq i1 =>
    have := i1 hn
    simp only [c.started] at this
    have e1 : bodyCount P { st' with bodies := st'.bodies ++ [(key, body)] } =
      bodyCount P st' + body.countP P := by simp [bodyCount]
    have e2 : bodyCount P { st with started := st.started ++ [(key, pair)] } = bodyCount P st := rfl
    have e3 := c.bodies st' (st'.bodies ++ [(key, body)])
    simp only [List.countP_cons, List.countP_nil, c.call, c.code] at this ⊢
    rw [e1, e3]
    simp only [Bool.false_eq_true, if_false]
    omega
  | casesNil => simp [c.casesNil]
  | @case st id i size a st1 b st2 h1 h2 i1 i2 =>
    have hn1 : st1.nullNarrow = false := by
      cases hx : st1.nullNarrow with
      | false => rfl
      | true => rw [h2.ext.nullNarrow hx] at hn; exact absurd hn (by simp)
    have := i1 hn1
    have := i2 hn
    have hc := c.case id i size (h2.cases_le _ _ _ rfl)
    simp only [List.countP_cons, List.countP_append, c.code] at *
    omega
  | @caseTwice st id i size a st1 b st2 h1 h2 i1 i2 =>
    have hn1 : st1.nullNarrow = false := by
      cases hx : st1.nullNarrow with
      | false => rfl
      | true => rw [h2.ext.nullNarrow hx] at hn; exact absurd hn (by simp)
    have := i1 hn1
    have := i2 hn
    have hc := c.case id i size (h2.cases_le _ _ _ rfl)
    simp only [List.countP_cons, List.countP_append, c.code, c.again, Bool.false_eq_true, if_false] at *
    omega
  | caseLost _ h2 i2 =>
    rw [h2.ext.nullNarrow rfl] at hn
    exact absurd hn (by simp)

theorem counting_bs (b : Nat) : Counting (isBS b) (fun st => min 1 (st.blocks - b)) (fun _ => 0) := by
  constructor <;> intros <;> first | rfl | skip
  all_goals simp [isBS, CState.addBlock, CState.addSwitch]
  split <;> omega

theorem counting_be (b : Nat) : Counting (isBE b) (fun st => min 1 (st.blocks - b)) (fun _ => 0) := by
  constructor <;> intros <;> first | rfl | skip
  all_goals simp [isBE, CState.addBlock, CState.addSwitch]
  split <;> omega

theorem counting_ss (b : Nat) : Counting (isSS b) (fun st => min 1 (st.switches.length - b)) (fun _ => 0) := by
  constructor <;> intros <;> first | rfl | skip
  case block => simp [isSS, CState.addBlock]
  all_goals simp [isSS, CState.addBlock, CState.addSwitch]
  split <;> omega

theorem counting_se (b : Nat) : Counting (isSE b) (fun st => min 1 (st.switches.length - b)) (fun _ => 0) := by
  constructor <;> intros <;> first | rfl | skip
  case block => simp [isSE, CState.addBlock]
  all_goals simp [isSE, CState.addBlock, CState.addSwitch]
  split <;> omega

/-- Number of cases with index `i` announced for switch `s`: one if the switch has more
than `i` members. -/
def caseWeight (s i : Nat) (st : CState) : Nat :=
  match st.switches[s]? with
  | some size => if i < size then 1 else 0
  | none => 0

theorem counting_sc (s i : Nat) : Counting (isSC s i) (caseWeight s i)
    (fun m => match m with
      | .code => 0
      | .cases id j size => if id = s ∧ j ≤ i ∧ i < size then 1 else 0) := by
  constructor <;> intros <;> first | rfl | skip
  all_goals simp [isSC, CState.addBlock, CState.addSwitch, caseWeight]
  case switch st size e =>
    rcases Nat.lt_trichotomy s st.switches.length with h | h | h
    · rw [List.getElem?_append_left h]
      have : ¬ st.switches.length = s := by omega
      simp [this]
    · subst h
      simp
    · have e1 : st.switches[s]? = none := List.getElem?_eq_none (by omega)
      have e2 : (st.switches ++ [size])[s]? = none := List.getElem?_eq_none (by simp; omega)
      have : ¬ st.switches.length = s := by omega
      simp [e1, e2, this]
  case case id j size h =>
    split <;> split <;> split <;> omega

/-! ### the whole program -/

theorem countP_concatMethods (P : IR → Bool) (hl : ∀ i, P (.lit i) = false) :
    ∀ ms, (concatMethods ms).countP P = (ms.flatMap (·.2)).countP P := by
  intro ms
  induction ms with
  | nil => rfl
  | cons x ms ih =>
    obtain ⟨k, b⟩ := x
    simp [concatMethods, List.countP_append, List.countP_cons, lit, hl, ih]

/-- The instructions laid out by `linkProgram`. -/
def allIR (ord : Orders) (main : List IR) (st : CState) : List IR :=
  main ++ [lit .halt 0] ++ concatMethods (ord.methods st.bodies)

theorem count_all {P w g} (c : Counting P w g) (ord : Orders) {main st} (h : Emits Q .code {} main st)
    (hn : st.nullNarrow = false) :
    (allIR ord main st).countP P + w {} = w st := by
  have h1 := h.count c hn
  have h2 : (concatMethods (ord.methods st.bodies)).countP P = bodyCount P st := by
    rw [countP_concatMethods P c.lit]
    exact List.Perm.countP_eq P ((ord.methods_perm st.bodies).flatMap_right _)
  simp only [allIR, List.countP_append, List.countP_cons, List.countP_nil, lit, c.lit, h2]
  simp only [c.code] at h1
  have : bodyCount P {} = 0 := rfl
  simp only [Bool.false_eq_true, if_false]
  omega

/-- A marked instruction that is the only one: nothing marked follows. -/
theorem countP_one {P : IR → Bool} {l A B : List IR} {x : IR} (h : l.countP P ≤ 1)
    (hl : l = A ++ x :: B) (hx : P x = true) : B.countP P = 0 ∧ A.countP P = 0 := by
  subst hl
  simp only [List.countP_append, List.countP_cons, hx, if_true] at h
  omega

/-! ### repeated cases -/

/-- A case marked `again` is followed by the same case, not so marked. -/
def Adj : List IR → Prop
  | [] => True
  | x :: l => (∀ s i, x = .switchCase s i true → l.head? = some (.switchCase s i false)) ∧ Adj l

theorem Adj.append : ∀ {a b : List IR}, Adj a → Adj b → Adj (a ++ b) := by
  intro a
  induction a with
  | nil => intro b _ hb; exact hb
  | cons x a ih =>
    intro b ha hb
    refine ⟨fun s i hx => ?_, ih ha.2 hb⟩
    have := ha.1 s i hx
    cases a with
    | nil => simp at this
    | cons y a => simpa using this

theorem Adj.of_append_right : ∀ {a b : List IR}, Adj (a ++ b) → Adj b := by
  intro a
  induction a with
  | nil => intro b h; exact h
  | cons x a ih => intro b h; exact ih h.2

theorem Emits.adj {m st irs st'} (h : Emits Q m st irs st') (hb : ∀ x ∈ st.bodies, Adj x.2) :
    Adj irs ∧ (∀ x ∈ st'.bodies, Adj x.2) := by
  have hl : ∀ op arg, Adj [Verif.lit op arg] := fun op arg => ⟨fun s i h => by simp [Verif.lit] at h, trivial⟩
  induction h with
  | nil => exact ⟨trivial, hb⟩
  | lit => exact ⟨hl _ _, hb⟩
  | halt => exact ⟨hl _ _, hb⟩
  | seq h1 h2 i1 i2 =>
    obtain ⟨a1, b1⟩ := i1 hb
    obtain ⟨a2, b2⟩ := i2 b1
    exact ⟨a1.append a2, b2⟩
  | block h1 i1 =>
    obtain ⟨a1, b1⟩ := i1 hb
    exact ⟨⟨fun s i h => by simp at h, a1.append ⟨fun s i h => by simp at h, trivial⟩⟩, b1⟩
  | switch h1 i1 =>
    obtain ⟨a1, b1⟩ := i1 hb
    exact ⟨⟨fun s i h => by simp at h, a1.append ⟨fun s i h => by simp at h, trivial⟩⟩, b1⟩
  | callOld => exact ⟨⟨fun s i h => by simp at h, trivial⟩, hb⟩
  | callNew hf h1 hq i1 =>
    obtain ⟨a1, b1⟩ := i1 hb
    refine ⟨⟨fun s i h => by simp at h, trivial⟩, fun x hx => ?_⟩
    rcases List.mem_append.1 hx with hx | hx
    · exact b1 x hx
    · simp only [List.mem_cons, List.not_mem_nil, or_false] at hx
      subst hx; exact a1
  | casesNil => exact ⟨trivial, hb⟩
  | case h1 h2 i1 i2 =>
    obtain ⟨a1, b1⟩ := i1 hb
    obtain ⟨a2, b2⟩ := i2 b1
    exact ⟨⟨fun s i h => by simp at h, a1.append a2⟩, b2⟩
  | caseTwice h1 h2 i1 i2 =>
    obtain ⟨a1, b1⟩ := i1 hb
    obtain ⟨a2, b2⟩ := i2 b1
    refine ⟨⟨fun s i h => ?_, ⟨fun s i h => by simp at h, a1.append a2⟩⟩, b2⟩
    simp only [IR.switchCase.injEq] at h
    simp [h.1, h.2.1]
  | caseLost hp h1 i1 =>
    obtain ⟨a1, b1⟩ := i1 hb
    exact ⟨⟨fun s i h => by simp [Verif.lit] at h, a1⟩, b1⟩

theorem adj_concatMethods : ∀ ms : List (MKey × List IR), (∀ x ∈ ms, Adj x.2) → Adj (concatMethods ms) := by
  intro ms
  induction ms with
  | nil => intro _; trivial
  | cons x ms ih =>
    obtain ⟨k, b⟩ := x
    intro h
    have hr : Adj [lit .ret noopField] := ⟨fun s i h => by simp [lit] at h, trivial⟩
    exact ((h (k, b) (by simp)).append hr).append
      (ih fun y hy => h y (by simp [hy]))

theorem adj_all (ord : Orders) {main st} (h : Emits Q .code {} main st) : Adj (allIR ord main st) := by
  obtain ⟨h1, h2⟩ := h.adj (by intro x hx; simp at hx)
  have hr : Adj [lit .halt 0] := ⟨fun s i h => by simp [lit] at h, trivial⟩
  refine (h1.append hr).append (adj_concatMethods _ ?_)
  intro x hx
  exact h2 x ((ord.methods_perm st.bodies).mem_iff.1 hx)

/-- Announced sizes are the sizes in the instructions. -/
theorem Emits.sizes {m st irs st'} (h : Emits Q m st irs st')
    (hb : ∀ x ∈ st.bodies, ∀ s n e, IR.switchStart s n e ∈ x.2 → st.switches[s]? = some n) :
    (∀ s n e, IR.switchStart s n e ∈ irs → st'.switches[s]? = some n) ∧
    (∀ x ∈ st'.bodies, ∀ s n e, IR.switchStart s n e ∈ x.2 → st'.switches[s]? = some n) := by
  have hpre : ∀ {a b : CState} {s n : Nat}, Ext a b → a.switches[s]? = some n → b.switches[s]? = some n := by
    intro a b s n hx hs
    obtain ⟨t, ht⟩ := hx.switches
    rw [← ht, List.getElem?_append_left]
    · exact hs
    · exact (List.getElem?_eq_some_iff.1 hs).1
  induction h with
  | nil => exact ⟨by simp, hb⟩
  | lit => exact ⟨by simp [Verif.lit], hb⟩
  | halt => exact ⟨by simp [Verif.lit], hb⟩
  | seq h1 h2 i1 i2 =>
    obtain ⟨a1, b1⟩ := i1 hb
    obtain ⟨a2, b2⟩ := i2 b1
    refine ⟨fun s n e hm => ?_, b2⟩
    rcases List.mem_append.1 hm with hm | hm
    · exact hpre h2.ext (a1 _ _ _ hm)
    · exact a2 _ _ _ hm
  | block h1 i1 =>
    obtain ⟨a1, b1⟩ := i1 hb
    refine ⟨fun s n e hm => ?_, b1⟩
    simp at hm
    exact a1 _ _ _ hm
  | @switch st m size a st' h1 i1 =>
    have hb' : ∀ x ∈ st.bodies, ∀ s n e, IR.switchStart s n e ∈ x.2 →
        ((st.addError m).addSwitch size).switches[s]? = some n := fun x hx s n e hm =>
      hpre ((ext_addError st m).trans (ext_addSwitch _ size)) (hb x hx s n e hm)
    obtain ⟨a1, b1⟩ := i1 hb'
    refine ⟨fun s n e hm => ?_, b1⟩
    simp at hm
    rcases hm with ⟨rfl, rfl, rfl⟩ | hm
    · apply hpre h1.ext
      simp [CState.addSwitch, CState.addError]
    · exact a1 _ _ _ hm
  | callOld => exact ⟨by simp, hb⟩
  | callNew hf h1 hq i1 =>
    obtain ⟨a1, b1⟩ := i1 hb
    refine ⟨by simp, fun x hx => ?_⟩
    rcases List.mem_append.1 hx with hx | hx
    · exact b1 x hx
    · simp only [List.mem_cons, List.not_mem_nil, or_false] at hx
      subst hx; exact a1
  | casesNil => exact ⟨by simp, hb⟩
  | case h1 h2 i1 i2 =>
    obtain ⟨a1, b1⟩ := i1 hb
    obtain ⟨a2, b2⟩ := i2 b1
    refine ⟨fun s n e hm => ?_, b2⟩
    simp at hm
    rcases hm with hm | hm
    · exact hpre h2.ext (a1 _ _ _ hm)
    · exact a2 _ _ _ hm
  | caseTwice h1 h2 i1 i2 =>
    obtain ⟨a1, b1⟩ := i1 hb
    obtain ⟨a2, b2⟩ := i2 b1
    refine ⟨fun s n e hm => ?_, b2⟩
    simp at hm
    rcases hm with hm | hm
    · exact hpre h2.ext (a1 _ _ _ hm)
    · exact a2 _ _ _ hm
  | caseLost hp h1 i1 =>
    obtain ⟨a1, b1⟩ := i1 hb
    refine ⟨fun s n e hm => ?_, b1⟩
    simp [Verif.lit] at hm
    exact a1 _ _ _ hm

theorem mem_concatMethods {x : IR} : ∀ ms : List (MKey × List IR), x ∈ concatMethods ms →
    x = lit .ret noopField ∨ ∃ y ∈ ms, x ∈ y.2 := by
  intro ms
  induction ms with
  | nil => intro h; simp [concatMethods] at h
  | cons y ms ih =>
    obtain ⟨k, b⟩ := y
    intro h
    simp only [concatMethods, List.mem_append, List.mem_cons, List.not_mem_nil, or_false] at h
    rcases h with (h | h) | h
    · exact .inr ⟨(k, b), by simp, h⟩
    · exact .inl h
    · rcases ih h with h | ⟨y, hy, hx⟩
      · exact .inl h
      · exact .inr ⟨y, by simp [hy], hx⟩

theorem sizes_all (ord : Orders) {main st} (h : Emits Q .code {} main st) {s n e}
    (hm : IR.switchStart s n e ∈ allIR ord main st) : st.switches[s]? = some n := by
  obtain ⟨h1, h2⟩ := h.sizes (by intro x hx; simp at hx)
  simp only [allIR, List.mem_append, List.mem_cons, List.not_mem_nil, or_false] at hm
  rcases hm with (hm | hm) | hm
  · exact h1 _ _ _ hm
  · simp [lit] at hm
  · rcases mem_concatMethods _ hm with hm | ⟨y, hy, hx⟩
    · simp [lit] at hm
    · exact h2 y ((ord.methods_perm st.bodies).mem_iff.1 hy) _ _ _ hx

/-! ### findOffsets -/

theorem irLen_append (a b : List IR) : irLen (a ++ b) = irLen a + irLen b := by
  induction a with
  | nil => simp [irLen]
  | cons x a ih => simp [irLen, ih]; omega

theorem findOffsets_append (L : Layout) (off : Nat) (a b : List IR) :
    findOffsets L off (a ++ b) = findOffsets (findOffsets L off a) (off + irLen a) b := by
  induction a generalizing L off with
  | nil => simp [findOffsets, irLen]
  | cons x a ih => simp only [List.cons_append, findOffsets, irLen, ih]; congr 1; omega

theorem findOffsets_bStart (id : Nat) : ∀ (l : List IR) (L : Layout) (off : Nat),
    l.countP (isBS id) = 0 → (findOffsets L off l).bStart id = L.bStart id := by
  intro l
  induction l with
  | nil => intro L off _; rfl
  | cons x l ih =>
    intro L off h
    simp only [List.countP_cons] at h
    rw [findOffsets, ih _ _ (by omega)]
    cases x <;> simp_all [Layout.note, update, isBS]
    intro hc; exact absurd hc.symm h.2

theorem findOffsets_bEnd (id : Nat) : ∀ (l : List IR) (L : Layout) (off : Nat),
    l.countP (isBE id) = 0 → (findOffsets L off l).bEnd id = L.bEnd id := by
  intro l
  induction l with
  | nil => intro L off _; rfl
  | cons x l ih =>
    intro L off h
    simp only [List.countP_cons] at h
    rw [findOffsets, ih _ _ (by omega)]
    cases x <;> simp_all [Layout.note, update, isBE]
    intro hc; exact absurd hc.symm h.2

theorem findOffsets_swEnd (id : Nat) : ∀ (l : List IR) (L : Layout) (off : Nat),
    l.countP (isSE id) = 0 → (findOffsets L off l).swEnd id = L.swEnd id := by
  intro l
  induction l with
  | nil => intro L off _; rfl
  | cons x l ih =>
    intro L off h
    simp only [List.countP_cons] at h
    rw [findOffsets, ih _ _ (by omega)]
    cases x <;> simp_all [Layout.note, update, isSE]
    intro hc; exact absurd hc.symm h.2

/-- Keys of an association list. -/
def keys (l : List (Nat × Nat)) : List Nat := l.map (·.1)

theorem mem_mapSet {l : List (Nat × Nat)} {k v : Nat} {x : Nat × Nat} :
    x ∈ mapSet l k v ↔ x = (k, v) ∨ (x ∈ l ∧ x.1 ≠ k) := by
  unfold mapSet
  split
  · rename_i h
    simp only [List.any_eq_true, beq_iff_eq] at h
    obtain ⟨y, hy, hk⟩ := h
    simp only [List.mem_map]
    constructor
    · rintro ⟨z, hz, rfl⟩
      split
      · exact .inl rfl
      · rename_i hne; exact .inr ⟨hz, hne⟩
    · rintro (rfl | ⟨hx, hne⟩)
      · exact ⟨y, hy, by simp [hk]⟩
      · exact ⟨x, hx, by simp [hne]⟩
  · rename_i h
    simp only [List.any_eq_true, beq_iff_eq, not_exists, not_and] at h
    simp only [List.mem_append, List.mem_cons, List.not_mem_nil, or_false]
    constructor
    · rintro (hx | rfl)
      · exact .inr ⟨hx, h x hx⟩
      · exact .inl rfl
    · rintro (rfl | ⟨hx, _⟩)
      · exact .inr rfl
      · exact .inl hx

theorem keys_mapSet {l : List (Nat × Nat)} {k v : Nat} (h : (keys l).Nodup) : (keys (mapSet l k v)).Nodup := by
  unfold mapSet
  split
  · have : keys (l.map fun x => if x.1 = k then (k, v) else x) = keys l := by
      simp only [keys, List.map_map]
      apply List.map_congr_left
      intro x hx
      simp only [Function.comp]
      split <;> simp_all
    rw [this]; exact h
  · rename_i hn
    simp only [List.any_eq_true, beq_iff_eq, not_exists, not_and] at hn
    simp only [keys, List.map_append, List.map_cons, List.map_nil]
    rw [List.nodup_append]
    refine ⟨h, by simp, ?_⟩
    intro a ha b hb
    simp only [List.mem_cons, List.not_mem_nil, or_false] at hb
    subst hb
    obtain ⟨x, hx, rfl⟩ := List.mem_map.1 ha
    exact hn x hx

theorem findOffsets_keys (id : Nat) : ∀ (l : List IR) (L : Layout) (off : Nat),
    (keys (L.swCases id)).Nodup → (keys ((findOffsets L off l).swCases id)).Nodup := by
  intro l
  induction l with
  | nil => intro L off h; exact h
  | cons x l ih =>
    intro L off h
    rw [findOffsets]
    apply ih
    cases x <;> try exact h
    rename_i s w ag
    simp only [Layout.note, update]
    split
    · rename_i he; subst he; exact keys_mapSet h
    · exact h

/-- Without a case for `w`, the entries of key `w` stay. -/
theorem findOffsets_case_keep (id w : Nat) : ∀ (l : List IR) (L : Layout) (off : Nat),
    (∀ b, IR.switchCase id w b ∉ l) →
    ∀ p, (w, p) ∈ (findOffsets L off l).swCases id ↔ (w, p) ∈ L.swCases id := by
  intro l
  induction l with
  | nil => intro L off _ p; rfl
  | cons x l ih =>
    intro L off h p
    rw [findOffsets, ih _ _ (fun b hb => h b (by simp [hb]))]
    cases x <;> try rfl
    rename_i s v ag
    simp only [Layout.note, update]
    split
    · rename_i he
      subst he
      rw [mem_mapSet]
      constructor
      · rintro (he | ⟨h1, _⟩)
        · simp only [Prod.mk.injEq] at he
          rw [he.1] at h
          exact absurd (List.mem_cons_self) (h ag)
        · exact h1
      · intro h1
        refine .inr ⟨h1, ?_⟩
        intro he
        simp only at he
        rw [he] at h
        exact absurd (List.mem_cons_self) (h ag)
    · rfl

/-- Every key comes from a case. -/
theorem findOffsets_case_from (id w p : Nat) : ∀ (l : List IR) (L : Layout) (off : Nat),
    (w, p) ∈ (findOffsets L off l).swCases id → (w, p) ∈ L.swCases id ∨ ∃ b, IR.switchCase id w b ∈ l := by
  intro l
  induction l with
  | nil => intro L off h; exact .inl h
  | cons x l ih =>
    intro L off h
    rw [findOffsets] at h
    rcases ih _ _ h with h | ⟨b, hb⟩
    · cases x <;> try exact .inl h
      rename_i s v ag _
      simp only [Layout.note, update] at h
      split at h
      · rename_i he
        subst he
        rw [mem_mapSet] at h
        rcases h with he | ⟨h1, _⟩
        · simp only [Prod.mk.injEq] at he
          exact .inr ⟨ag, by rw [he.1]; simp⟩
        · exact .inl h1
      · exact .inl h
    · exact .inr ⟨b, by simp [hb]⟩

end
end Verif
