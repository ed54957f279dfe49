import Verif.Compiler.Correct
/-
Linking never fails on what `compileType` produces, and the linked program only refers
to instructions and messages it has.
-/
set_option linter.unusedSimpArgs false
set_option linter.unusedVariables false
namespace Verif
section
variable {Q : BodyPred}

/-- A literal is plain, a return, or a halt with one of `N` messages. -/
def IR.errOK (N : Nat) : IR → Prop
  | .lit ⟨op, arg⟩ => op.isPlain = true ∨ op = .ret ∨ (op = .halt ∧ 0 ≤ arg ∧ arg ≤ N)
  | .switchStart _ _ e => e ≤ N
  | _ => True

theorem IR.errOK.mono {N M : Nat} (h : N ≤ M) {x : IR} (hx : x.errOK N) : x.errOK M := by
  cases x with
  | lit i =>
    obtain ⟨op, arg⟩ := i
    rcases hx with h1 | h1 | ⟨h1, h2, h3⟩
    · exact .inl h1
    · exact .inr (.inl h1)
    · exact .inr (.inr ⟨h1, h2, by omega⟩)
  | switchStart a b c => simp only [IR.errOK] at hx ⊢; omega
  | _ => trivial

theorem Ext.errors_le {a b : CState} (h : Ext a b) : a.errors.length ≤ b.errors.length :=
  h.errors.length_le

theorem Emits.errs {m st irs st'} (h : Emits Q m st irs st')
    (hb : ∀ x ∈ st.bodies, ∀ y ∈ x.2, IR.errOK st.errors.length y) :
    (∀ y ∈ irs, IR.errOK st'.errors.length y) ∧
    (∀ x ∈ st'.bodies, ∀ y ∈ x.2, IR.errOK st'.errors.length y) := by
  have mono : ∀ {a b : CState} {y : IR}, Ext a b → IR.errOK a.errors.length y → IR.errOK b.errors.length y :=
    fun hx h => h.mono hx.errors_le
  have hbe : ∀ {a b : CState}, Ext a b → a.bodies = b.bodies →
      (∀ x ∈ a.bodies, ∀ y ∈ x.2, IR.errOK a.errors.length y) →
      (∀ x ∈ b.bodies, ∀ y ∈ x.2, IR.errOK b.errors.length y) := by
    intro a b hx he h x hm y hy
    exact mono hx (h x (he ▸ hm) y hy)
  induction h with
  | nil => exact ⟨by simp, hb⟩
  | lit hp => exact ⟨by simp [Verif.lit, IR.errOK, hp], hb⟩
  | @halt st m =>
    refine ⟨?_, hbe (ext_addError _ _) rfl hb⟩
    intro y hy
    simp only [List.mem_cons, List.not_mem_nil, or_false] at hy
    subst hy
    simp only [Verif.lit, IR.errOK, CState.addError, List.length_append, List.length_cons, List.length_nil]
    right; right; refine ⟨trivial, ?_, ?_⟩ <;> omega
  | seq h1 h2 i1 i2 =>
    obtain ⟨a1, b1⟩ := i1 hb
    obtain ⟨a2, b2⟩ := i2 b1
    refine ⟨fun k hm => ?_, b2⟩
    rcases List.mem_append.1 hm with hm | hm
    · exact mono h2.ext (a1 _ hm)
    · exact a2 _ hm
  | block h1 i1 =>
    obtain ⟨a1, b1⟩ := i1 (hbe (ext_addBlock _) rfl hb)
    refine ⟨fun k hm => ?_, b1⟩
    simp at hm
    rcases hm with rfl | hm | rfl
    · trivial
    · exact a1 _ hm
    · trivial
  | @switch st m size a st' h1 i1 =>
    obtain ⟨a1, b1⟩ := i1 (hbe ((ext_addError _ _).trans (ext_addSwitch _ _)) rfl hb)
    refine ⟨fun k hm => ?_, b1⟩
    simp at hm
    rcases hm with rfl | hm | rfl
    · have := h1.ext.errors_le
      simpa [IR.errOK, CState.addError, CState.addSwitch] using this
    · exact a1 _ hm
    · trivial
  | callOld hf hc => exact ⟨by simp [IR.errOK], hb⟩
  | @callNew st key pair body st' hf h1 hq i1 =>
    obtain ⟨a1, b1⟩ := i1 hb
    refine ⟨by simp [IR.errOK], fun x hx => ?_⟩
    rcases List.mem_append.1 hx with hx | hx
    · exact b1 x hx
    · simp only [List.mem_cons, List.not_mem_nil, or_false] at hx
      subst hx; exact a1
  | casesNil => exact ⟨by simp, hb⟩
  | case h1 h2 i1 i2 =>
    obtain ⟨a1, b1⟩ := i1 hb
    obtain ⟨a2, b2⟩ := i2 b1
    refine ⟨fun k hm => ?_, b2⟩
    simp only [List.mem_cons, List.mem_append] at hm
    rcases hm with rfl | hm | hm
    · trivial
    · exact mono h2.ext (a1 _ hm)
    · exact a2 _ hm
  | caseTwice h1 h2 i1 i2 =>
    obtain ⟨a1, b1⟩ := i1 hb
    obtain ⟨a2, b2⟩ := i2 b1
    refine ⟨fun k hm => ?_, b2⟩
    simp only [List.mem_cons, List.mem_append] at hm
    rcases hm with rfl | rfl | hm | hm
    · trivial
    · trivial
    · exact mono h2.ext (a1 _ hm)
    · exact a2 _ hm
  | caseLost hp h1 i1 =>
    obtain ⟨a1, b1⟩ := i1 hb
    refine ⟨fun k hm => ?_, b1⟩
    simp only [List.mem_cons] at hm
    rcases hm with rfl | hm
    · exact .inl hp
    · exact a1 _ hm

theorem all_of_parts {P : IR → Prop} (ord : Orders) {main st} (h1 : ∀ y ∈ main, P y)
    (h2 : ∀ x ∈ st.bodies, ∀ y ∈ x.2, P y) (hh : P (lit .halt 0)) (hr : P (lit .ret noopField)) :
    ∀ y ∈ allIR ord main st, P y := by
  intro y hy
  simp only [allIR, List.mem_append, List.mem_cons, List.not_mem_nil, or_false] at hy
  rcases hy with (hy | hy) | hy
  · exact h1 y hy
  · exact hy ▸ hh
  · rcases mem_concatMethods _ hy with hy | ⟨x, hx, hy⟩
    · exact hy ▸ hr
    · exact h2 x ((ord.methods_perm st.bodies).mem_iff.1 hx) y hy

theorem toVM_total {ord offs L} : ∀ (l : List IR), (∀ x ∈ l, ∃ c, x.toVM ord offs L = .ok c) →
    ∃ c, toVM ord offs L l = .ok c := by
  intro l
  induction l with
  | nil => intro _; exact ⟨[], rfl⟩
  | cons x l ih =>
    intro h
    obtain ⟨a, ha⟩ := h x (by simp)
    obtain ⟨b, hb⟩ := ih (fun y hy => h y (by simp [hy]))
    exact ⟨a ++ b, by simp [toVM, ha, hb]⟩

/-- The layout and emission of calls: every called method has an offset. -/
theorem calls_resolved (ord : Orders) {main st} (h : Emits Q .code {} main st) (off : Nat) {k : MKey}
    (hk : IR.call k ∈ allIR ord main st) :
    ∃ o, findMethod (methodOffsets off (ord.methods st.bodies)) k = some o := by
  have hc := h.calls (by intro x hx; simp at hx)
  have := all_of_parts (P := fun y => ∀ k, y = IR.call k → k ∈ st.started.map (·.1)) ord
    (fun y hy k e => hc.1 k (e ▸ hy)) (fun x hx y hy k e => hc.2 x hx k (e ▸ hy))
    (by intro k e; simp [lit] at e) (by intro k e; simp [lit] at e) _ hk k rfl
  obtain ⟨S, B, h1, h2, h3⟩ := h.finishes
  simp only [List.nil_append] at h1 h2
  apply findMethod_of_mem
  rw [methodOffsets_keys, ((ord.methods_perm st.bodies).map _).mem_iff, h2]
  exact h3.mem_iff.1 (h1 ▸ this)

/-- Linking succeeds. -/
theorem link_total (ord : Orders) {main st} (h : Emits Q .code {} main st) :
    ∃ prog, linkProgram ord main st = .ok prog := by
  obtain ⟨c, hc⟩ := toVM_total (ord := ord) (offs := methodOffsets (irLen main + 1) (ord.methods st.bodies))
    (L := findOffsets {} 0 (allIR ord main st)) (allIR ord main st) (by
      intro x hx
      cases x with
      | call k =>
        obtain ⟨o, ho⟩ := calls_resolved ord h (irLen main + 1) hx
        exact ⟨[⟨.call, o⟩], by simp only [IR.toVM, ho]⟩
      | _ => exact ⟨_, rfl⟩)
  refine ⟨⟨c, st.errors⟩, ?_⟩
  unfold linkProgram
  simp only [show main ++ [lit .halt 0] ++ concatMethods (ord.methods st.bodies) = allIR ord main st from rfl, hc]

/-- All offsets found lie within the instructions looked at. -/
structure Layout.Below (L : Layout) (N : Nat) : Prop where
  bStart : ∀ i, L.bStart i = 0 ∨ L.bStart i + 9 ≤ N
  bEnd : ∀ i, L.bEnd i = 0 ∨ L.bEnd i + 5 ≤ N
  swEnd : ∀ i, L.swEnd i ≤ N
  swCases : ∀ i x, x ∈ L.swCases i → x.2 + 1 ≤ N

theorem mapSet_mem {l : List (Nat × Nat)} {k v : Nat} {x} (h : x ∈ mapSet l k v) : x ∈ l ∨ x = (k, v) := by
  unfold mapSet at h
  split at h
  · obtain ⟨y, hy, he⟩ := List.mem_map.1 h
    split at he
    · exact .inr he.symm
    · exact .inl (he ▸ hy)
  · rcases List.mem_append.1 h with h | h
    · exact .inl h
    · exact .inr (by simpa using h)

theorem Layout.Below.note {L : Layout} {N off : Nat} {x : IR} (h : L.Below N) (hx : off + x.len ≤ N) :
    (L.note off x).Below N := by
  cases x with
  | blockStart id =>
    refine { h with bStart := fun i => ?_ }
    simp only [Layout.note, update]; split
    · exact .inr hx
    · exact h.bStart i
  | blockEnd id =>
    refine { h with bEnd := fun i => ?_ }
    simp only [Layout.note, update]; split
    · exact .inr hx
    · exact h.bEnd i
  | switchCase id w b =>
    refine { h with swCases := fun i y hy => ?_ }
    simp only [Layout.note, update] at hy; split at hy
    · rcases mapSet_mem hy with hy | hy
      · exact h.swCases _ y hy
      · subst hy; exact hx
    · exact h.swCases i y hy
  | switchEnd id =>
    refine { h with swEnd := fun i => ?_ }
    simp only [Layout.note, update]; split
    · simp only [IR.len] at hx; omega
    · exact h.swEnd i
  | _ => exact h

theorem findOffsets_below {N : Nat} : ∀ (l : List IR) (L : Layout) (off : Nat), L.Below N → off + irLen l ≤ N →
    (findOffsets L off l).Below N := by
  intro l
  induction l with
  | nil => intro L off h _; exact h
  | cons x l ih =>
    intro L off h hl
    simp only [irLen] at hl
    exact ih _ _ (h.note (by omega)) (by omega)

theorem below_empty (N : Nat) : ({} : Layout).Below N :=
  ⟨fun _ => .inl rfl, fun _ => .inl rfl, fun _ => Nat.zero_le _, fun _ x hx => by simp at hx⟩

/-- The last instruction is a literal. -/
theorem allIR_last (ord : Orders) (main : List IR) (st : CState) :
    ∃ init op arg, allIR ord main st = init ++ [lit op arg] := by
  unfold allIR
  generalize ord.methods st.bodies = ms
  suffices ∀ (ms : List (MKey × List IR)) (pre : List IR), (∃ i op arg, pre = i ++ [lit op arg]) →
      ∃ i op arg, pre ++ concatMethods ms = i ++ [lit op arg] from
    this ms _ ⟨main, _, _, rfl⟩
  intro ms
  induction ms with
  | nil => intro pre h; simpa [concatMethods] using h
  | cons x ms ih =>
    obtain ⟨k, b⟩ := x
    intro pre h
    have := ih (pre ++ (b ++ [lit .ret noopField])) ⟨pre ++ b, .ret, noopField, by simp⟩
    simpa [concatMethods] using this

theorem methodOffsets_lt {k o} : ∀ (ms : List (MKey × List IR)) (off : Nat), (k, o) ∈ methodOffsets off ms →
    o + 1 ≤ off + irLen (concatMethods ms) := by
  intro ms
  induction ms with
  | nil => intro off h; simp [methodOffsets] at h
  | cons x ms ih =>
    obtain ⟨k', b⟩ := x
    intro off h
    simp only [methodOffsets, List.mem_cons, Prod.mk.injEq] at h
    simp only [concatMethods, irLen_append, irLen, IR.len, lit]
    rcases h with ⟨_, h⟩ | h
    · omega
    · have := ih _ h; omega

theorem mem_toVM {ord offs L} : ∀ {l : List IR} {c} {i}, toVM ord offs L l = .ok c → i ∈ c →
    ∃ x cx, x ∈ l ∧ x.toVM ord offs L = .ok cx ∧ i ∈ cx := by
  intro l
  induction l with
  | nil => intro c i h hi; simp only [toVM, Except.ok.injEq] at h; subst h; simp at hi
  | cons y l ih =>
    intro c i h hi
    simp only [toVM] at h
    cases h1 : y.toVM ord offs L with
    | error e => rw [h1] at h; simp at h
    | ok a =>
      cases h2 : toVM ord offs L l with
      | error e => rw [h1, h2] at h; simp at h
      | ok b =>
        rw [h1, h2] at h
        simp only [Except.ok.injEq] at h
        subst h
        rcases List.mem_append.1 hi with hi | hi
        · exact ⟨y, a, by simp, h1, hi⟩
        · obtain ⟨x, cx, h3, h4, h5⟩ := ih h2 hi
          exact ⟨x, cx, by simp [h3], h4, h5⟩

theorem mem_dispatch {i : Instr} : ∀ {l : List (Nat × Nat)}, i ∈ dispatch l →
    (∃ v, i = ⟨.evalEqual, v⟩) ∨ (∃ x ∈ l, i = ⟨.condJump, (x.2 + 1 : Nat)⟩) := by
  intro l
  induction l with
  | nil => intro h; simp [dispatch] at h
  | cons x l ih =>
    obtain ⟨v, o⟩ := x
    intro h
    simp only [dispatch, List.mem_cons] at h
    rcases h with h | h | h
    · exact .inl ⟨_, h⟩
    · exact .inr ⟨(v, o), by simp, h⟩
    · rcases ih h with h | ⟨x, hx, h⟩
      · exact .inl h
      · exact .inr ⟨x, by simp [hx], h⟩

theorem irLen_mem {x : IR} : ∀ {l : List IR}, x ∈ l → x.len ≤ irLen l := by
  intro l
  induction l with
  | nil => intro h; simp at h
  | cons y l ih =>
    intro h
    simp only [irLen]
    rcases List.mem_cons.1 h with h | h
    · subst h; omega
    · have := ih h; omega

/-- Operands of jumps, calls and halts are in range. -/
structure Program.InRange (p : Program) : Prop where
  jump : ∀ i ∈ p.instrs, (i.op = .jump ∨ i.op = .condJump ∨ i.op = .call) → 0 ≤ i.arg ∧ i.arg < p.instrs.length
  halt : ∀ i ∈ p.instrs, i.op = .halt → 0 ≤ i.arg ∧ i.arg ≤ p.errors.length

theorem link_inRange (ord : Orders) {main st prog} (h : Emits Q .code {} main st) (hn : st.nullNarrow = false)
    (hl : linkProgram ord main st = .ok prog) : prog.InRange := by
  have her := h.errs (by intro x hx; simp at hx)
  have herr := all_of_parts (P := IR.errOK st.errors.length) ord her.1 her.2
    (.inr (.inr ⟨rfl, by omega, by omega⟩)) (.inr (.inl rfl))
  obtain ⟨init, op0, arg0, hlast⟩ := allIR_last ord main st
  have hN : irLen (allIR ord main st) = irLen init + 1 := by rw [hlast, irLen_append]; rfl
  have hB : (findOffsets {} 0 (allIR ord main st)).Below (irLen init) := by
    rw [hlast, findOffsets_append]
    show (findOffsets (findOffsets {} 0 init) _ [lit op0 arg0]).Below _
    simp only [findOffsets, lit, Layout.note]
    exact findOffsets_below _ _ _ (below_empty _) (by omega)
  have hlen : ∀ x ∈ allIR ord main st, x.len ≤ irLen init ∨ ∃ i, x = .lit i := by
    intro x hx
    rw [hlast] at hx
    rcases List.mem_append.1 hx with hx | hx
    · exact .inl (irLen_mem hx)
    · right; simp only [List.mem_cons, List.not_mem_nil, or_false] at hx; exact ⟨_, hx⟩
  unfold linkProgram at hl
  simp only [show main ++ [lit .halt 0] ++ concatMethods (ord.methods st.bodies) = allIR ord main st from rfl] at hl
  split at hl
  · simp at hl
  · rename_i c hc
    simp only [Except.ok.injEq] at hl
    subst hl
    have hcl : c.length = irLen init + 1 := by
      rw [← hN]; exact toVM_length (fun x hx c hc => link_len h hn hx hc) hc
    have hM : ∀ k o, findMethod (methodOffsets (irLen main + 1) (ord.methods st.bodies)) k = some o →
        o < c.length := by
      intro k o ho
      have := methodOffsets_lt _ _ (findMethod_some ho)
      have e : irLen (allIR ord main st) = irLen main + 1 + irLen (concatMethods (ord.methods st.bodies)) := by
        simp [allIR, irLen_append, irLen, IR.len, lit]; omega
      omega
    constructor
    · intro i hi hop
      simp only
      obtain ⟨x, cx, hx, hcx, hi⟩ := mem_toVM hc hi
      have hxl := hlen x hx
      have hxe := herr x hx
      cases x with
      | lit j =>
        simp only [IR.toVM, Except.ok.injEq] at hcx
        subst hcx
        simp only [List.mem_cons, List.not_mem_nil, or_false] at hi
        subst hi
        obtain ⟨op, arg⟩ := i
        simp only at hop
        simp only [IR.errOK] at hxe
        rcases hop with rfl | rfl | rfl <;> simp [Op.isPlain] at hxe
      | call k =>
        simp only [IR.toVM] at hcx
        split at hcx
        · rename_i o ho
          simp only [Except.ok.injEq] at hcx
          subst hcx
          simp only [List.mem_cons, List.not_mem_nil, or_false] at hi
          subst hi
          have := hM _ _ ho
          simp only; omega
        · simp at hcx
      | blockStart id =>
        simp only [IR.toVM, Except.ok.injEq] at hcx
        subst hcx
        have h9 : 9 ≤ irLen init := by
          rcases hxl with hxl | ⟨_, hxl⟩
          · simpa [IR.len] using hxl
          · simp at hxl
        have h1 := hB.bStart id
        have h2 := hB.bEnd id
        simp only [List.mem_cons, List.not_mem_nil, or_false] at hi
        rcases hi with rfl | rfl | rfl | rfl | rfl | rfl | rfl | rfl | rfl <;> simp at hop <;> simp only <;> omega
      | blockEnd id =>
        simp only [IR.toVM, Except.ok.injEq] at hcx
        subst hcx
        have h1 := hB.bStart id
        have h9 : 9 ≤ irLen init := by
          have c1 := count_all (counting_bs id) ord h hn
          have c2 := count_all (counting_be id) ord h hn
          have c3 : 0 < (allIR ord main st).countP (isBE id) :=
            List.countP_pos_iff.2 ⟨_, hx, by simp [isBE]⟩
          have c4 : 0 < (allIR ord main st).countP (isBS id) := by omega
          obtain ⟨y, hy, hy'⟩ := List.countP_pos_iff.1 c4
          cases y <;> simp [isBS] at hy'
          rcases hlen _ hy with h9 | ⟨_, h9⟩
          · simpa [IR.len] using h9
          · simp at h9
        simp only [List.mem_cons, List.not_mem_nil, or_false] at hi
        rcases hi with rfl | rfl | rfl | rfl | rfl <;> simp at hop <;> simp only <;> omega
      | switchStart id size e =>
        simp only [IR.toVM, Except.ok.injEq] at hcx
        subst hcx
        simp only [List.mem_append, List.mem_cons, List.not_mem_nil, or_false] at hi
        rcases hi with hi | hi
        · rcases mem_dispatch hi with ⟨v, rfl⟩ | ⟨y, hy, rfl⟩
          · simp at hop
          · have := hB.swCases id y ((ord.cases_perm _ _).mem_iff.1 hy)
            simp only; omega
        · subst hi; simp at hop
      | switchCase id w b =>
        simp only [IR.toVM, Except.ok.injEq] at hcx
        subst hcx
        simp only [List.mem_cons, List.not_mem_nil, or_false] at hi
        subst hi
        have := hB.swEnd id
        simp only; omega
      | switchEnd id =>
        simp only [IR.toVM, Except.ok.injEq] at hcx
        subst hcx
        simp at hi
    · intro i hi hop
      simp only
      obtain ⟨x, cx, hx, hcx, hi⟩ := mem_toVM hc hi
      have hxe := herr x hx
      cases x with
      | lit j =>
        simp only [IR.toVM, Except.ok.injEq] at hcx
        subst hcx
        simp only [List.mem_cons, List.not_mem_nil, or_false] at hi
        subst hi
        obtain ⟨op, arg⟩ := i
        simp only at hop
        subst hop
        simpa [IR.errOK, Op.isPlain] using hxe
      | call k =>
        simp only [IR.toVM] at hcx
        split at hcx
        · simp only [Except.ok.injEq] at hcx
          subst hcx
          simp only [List.mem_cons, List.not_mem_nil, or_false] at hi
          subst hi; simp at hop
        · simp at hcx
      | blockStart id =>
        simp only [IR.toVM, Except.ok.injEq] at hcx
        subst hcx
        simp only [List.mem_cons, List.not_mem_nil, or_false] at hi
        rcases hi with rfl | rfl | rfl | rfl | rfl | rfl | rfl | rfl | rfl <;> simp at hop
      | blockEnd id =>
        simp only [IR.toVM, Except.ok.injEq] at hcx
        subst hcx
        simp only [List.mem_cons, List.not_mem_nil, or_false] at hi
        rcases hi with rfl | rfl | rfl | rfl | rfl <;> simp at hop
      | switchStart id size e =>
        simp only [IR.toVM, Except.ok.injEq] at hcx
        subst hcx
        simp only [List.mem_append, List.mem_cons, List.not_mem_nil, or_false] at hi
        rcases hi with hi | hi
        · rcases mem_dispatch hi with ⟨v, rfl⟩ | ⟨y, hy, rfl⟩ <;> simp at hop
        · subst hi
          simp only [IR.errOK] at hxe
          simp only; omega
      | switchCase id w b =>
        simp only [IR.toVM, Except.ok.injEq] at hcx
        subst hcx
        simp only [List.mem_cons, List.not_mem_nil, or_false] at hi
        subst hi; simp at hop
      | switchEnd id =>
        simp only [IR.toVM, Except.ok.injEq] at hcx
        subst hcx
        simp at hi
end
end Verif
