import Verif.Compiler.Layout
import Verif.Compiler.ImplLoop
/-
From laid-out instructions to the linked program: every intermediate instruction's code
is at its offset, and the labels recorded by `findOffsets` are the right ones.
-/
set_option linter.unusedSimpArgs false
set_option linter.unusedVariables false
namespace Verif
section
variable {Q : BodyPred}

/-- `irs` occurs in `all` at offset `p` of the code. -/
def At (all : List IR) (p : Nat) (irs : List IR) : Prop := ∃ A B, all = A ++ (irs ++ B) ∧ irLen A = p

theorem At.left {all p a b} (h : At all p (a ++ b)) : At all p a := by
  obtain ⟨A, B, h1, h2⟩ := h
  exact ⟨A, b ++ B, by rw [h1, List.append_assoc], h2⟩

theorem At.right {all p a b} (h : At all p (a ++ b)) : At all (p + irLen a) b := by
  obtain ⟨A, B, h1, h2⟩ := h
  exact ⟨A ++ a, B, by rw [h1]; simp, by rw [irLen_append, h2]⟩

theorem At.head {all p x l} (h : At all p (x :: l)) : At all p [x] := At.left (a := [x]) h
theorem At.tail {all p x l} (h : At all p (x :: l)) : At all (p + x.len) l := by
  have := At.right (a := [x]) h
  simpa [irLen] using this

theorem At.mem {all p x l} (h : At all p (x :: l)) : x ∈ all := by
  obtain ⟨A, B, h1, h2⟩ := h
  rw [h1]; simp

/-- The code `c` is at offset `p`. -/
def Code (prog : Program) (p : Nat) (c : List Instr) : Prop :=
  ∀ i x, c[i]? = some x → prog.instrs[p + i]? = some x

theorem Code.get {prog p c} (h : Code prog p c) (i x) (hx : c[i]? = some x) : prog.instrs[p + i]? = some x :=
  h i x hx

theorem Code.left {prog p a b} (h : Code prog p (a ++ b)) : Code prog p a := by
  intro i x hx
  apply h i x
  rw [List.getElem?_append_left]
  · exact hx
  · exact (List.getElem?_eq_some_iff.1 hx).1

theorem Code.right {prog p a b} (h : Code prog p (a ++ b)) : Code prog (p + a.length) b := by
  intro i x hx
  have := h (a.length + i) x (by rw [List.getElem?_append_right (by omega)]; simpa using hx)
  rw [Nat.add_assoc]; exact this

theorem toVM_split {ord offs L} : ∀ {A : List IR} {x B c}, toVM ord offs L (A ++ x :: B) = .ok c →
    ∃ ca cx cb, toVM ord offs L A = .ok ca ∧ x.toVM ord offs L = .ok cx ∧ toVM ord offs L B = .ok cb ∧
      c = ca ++ (cx ++ cb) := by
  intro A
  induction A with
  | nil =>
    intro x B c h
    simp only [List.nil_append, toVM] at h
    cases h1 : x.toVM ord offs L with
    | error e => simp [h1] at h
    | ok a =>
      cases h2 : toVM ord offs L B with
      | error e => simp [h1, h2] at h
      | ok b =>
        simp only [h1, h2, Except.ok.injEq] at h
        exact ⟨[], a, b, rfl, rfl, rfl, by simp [h]⟩
  | cons y A ih =>
    intro x B c h
    simp only [List.cons_append, toVM] at h
    cases h1 : y.toVM ord offs L with
    | error e => simp [h1] at h
    | ok a =>
      cases h2 : toVM ord offs L (A ++ x :: B) with
      | error e => simp [h1, h2] at h
      | ok b =>
        simp only [h1, h2, Except.ok.injEq] at h
        obtain ⟨ca, cx, cb, h3, h4, h5, h6⟩ := ih h2
        exact ⟨a ++ ca, cx, cb, by simp [toVM, h1, h3], h4, h5, by rw [← h, h6]; simp⟩

theorem toVM_length {ord offs L} : ∀ {A : List IR} {c}, (∀ x ∈ A, ∀ c, x.toVM ord offs L = .ok c → c.length = x.len) →
    toVM ord offs L A = .ok c → c.length = irLen A := by
  intro A
  induction A with
  | nil => intro c _ h; simp only [toVM, Except.ok.injEq] at h; subst h; rfl
  | cons y A ih =>
    intro c hl h
    simp only [toVM] at h
    cases h1 : y.toVM ord offs L with
    | error e => simp [h1] at h
    | ok a =>
      cases h2 : toVM ord offs L A with
      | error e => simp [h1, h2] at h
      | ok b =>
        simp only [h1, h2, Except.ok.injEq] at h
        rw [← h, List.length_append, irLen, hl y (by simp) a h1, ih (fun x hx => hl x (by simp [hx])) h2]

theorem dispatch_length (l : List (Nat × Nat)) : (dispatch l).length = 2 * l.length := by
  induction l with
  | nil => rfl
  | cons x l ih => obtain ⟨a, b⟩ := x; simp [dispatch, ih]; omega

section
variable {ord : Orders} {main : List IR} {st : CState} (h : Emits Q .code {} main st)
  (hn : st.nullNarrow = false)
include h hn

/-- A repeated case is followed by the real one. -/
theorem real_case {B : List IR} (hB : Adj B) {id w b} (hm : IR.switchCase id w b ∈ B) :
    IR.switchCase id w false ∈ B := by
  cases b with
  | false => exact hm
  | true =>
    obtain ⟨A, C, rfl⟩ := List.append_of_mem hm
    have h1 := hB.of_append_right.1 id w rfl
    cases C with
    | nil => simp at h1
    | cons y C => simp only [List.head?_cons, Option.some.injEq] at h1; subst h1; simp

theorem case_count (id w : Nat) :
    (allIR ord main st).countP (isSC id w) = caseWeight id w st := by
  have := count_all (counting_sc id w) ord h hn
  simpa [caseWeight] using this

theorem link_case {p id w} (ha : At (allIR ord main st) p [.switchCase id w false]) (q : Nat) :
    (w, q) ∈ (findOffsets {} 0 (allIR ord main st)).swCases id ↔ q = p := by
  obtain ⟨A, B, h1, h2⟩ := ha
  have hc : (allIR ord main st).countP (isSC id w) ≤ 1 := by
    rw [case_count h hn]; unfold caseWeight; split
    · split <;> omega
    · omega
  have h0 := countP_one hc h1 (by simp [isSC])
  have hadj : Adj B := by
    have := adj_all ord h
    rw [h1] at this
    exact (this.of_append_right).of_append_right
  have hno : ∀ b, IR.switchCase id w b ∉ B := by
    intro b hb
    have := real_case h hn hadj hb
    have h3 := List.countP_eq_zero.1 h0.1 _ this
    simp [isSC] at h3
  rw [h1, findOffsets_append]
  simp only [List.cons_append, List.nil_append, findOffsets]
  rw [findOffsets_case_keep id w B _ _ hno]
  simp only [Layout.note, update, if_true, mem_mapSet, Prod.mk.injEq, true_and, h2, Nat.zero_add]
  simp

theorem link_keys (id : Nat) : (keys ((findOffsets {} 0 (allIR ord main st)).swCases id)).Nodup :=
  findOffsets_keys id _ _ _ (by simp [keys])

theorem link_key_iff {id n k} (hs : st.switches[id]? = some n) :
    k ∈ keys ((findOffsets {} 0 (allIR ord main st)).swCases id) ↔ k < n := by
  have hc := case_count (ord := ord) h hn id k
  simp only [caseWeight, hs] at hc
  constructor
  · intro hk
    obtain ⟨⟨k', p⟩, hx, rfl⟩ := List.mem_map.1 hk
    rcases findOffsets_case_from _ _ _ _ _ _ hx with h1 | ⟨b, h1⟩
    · simp at h1
    · have h2 := real_case h hn (adj_all ord h) h1
      have h3 : 0 < (allIR ord main st).countP (isSC id k') :=
        List.countP_pos_iff.2 ⟨_, h2, by simp [isSC]⟩
      simp only at hc ⊢
      split at hc
      · assumption
      · omega
  · intro hk
    rw [if_pos hk] at hc
    have h3 : 0 < (allIR ord main st).countP (isSC id k) := by omega
    obtain ⟨x, hx, hp⟩ := List.countP_pos_iff.1 h3
    obtain ⟨A, B, hAB⟩ := List.append_of_mem hx
    have : x = .switchCase id k false := by
      cases x with
      | switchCase i j b => cases b <;> simp [isSC] at hp; simp [hp]
      | _ => simp [isSC] at hp
    subst this
    exact List.mem_map.2 ⟨(k, irLen A), (link_case h hn ⟨A, B, by simpa using hAB, rfl⟩ _).2 rfl, rfl⟩

theorem link_size {id n} (hs : st.switches[id]? = some n) :
    ((findOffsets {} 0 (allIR ord main st)).swCases id).length = n := by
  have h1 := link_keys (ord := ord) h hn id
  have h2 : (keys ((findOffsets {} 0 (allIR ord main st)).swCases id)).Perm (List.range n) := by
    rw [List.perm_ext_iff_of_nodup h1 List.nodup_range]
    intro k
    rw [link_key_iff h hn hs, List.mem_range]
  have := h2.length_eq
  simpa [keys] using this

theorem link_bStart {p id} (ha : At (allIR ord main st) p [.blockStart id]) :
    (findOffsets {} 0 (allIR ord main st)).bStart id = p := by
  obtain ⟨A, B, h1, h2⟩ := ha
  have hc : (allIR ord main st).countP (isBS id) ≤ 1 := by
    have := count_all (counting_bs id) ord h hn
    omega
  have h0 := countP_one hc h1 (by simp [isBS])
  rw [h1, findOffsets_append]
  simp only [List.cons_append, List.nil_append, findOffsets]
  rw [findOffsets_bStart id B _ _ h0.1]
  simp [Layout.note, update, h2]

theorem link_bEnd {p id} (ha : At (allIR ord main st) p [.blockEnd id]) :
    (findOffsets {} 0 (allIR ord main st)).bEnd id = p := by
  obtain ⟨A, B, h1, h2⟩ := ha
  have hc : (allIR ord main st).countP (isBE id) ≤ 1 := by
    have := count_all (counting_be id) ord h hn
    omega
  have h0 := countP_one hc h1 (by simp [isBE])
  rw [h1, findOffsets_append]
  simp only [List.cons_append, List.nil_append, findOffsets]
  rw [findOffsets_bEnd id B _ _ h0.1]
  simp [Layout.note, update, h2]

theorem link_swEnd {p id} (ha : At (allIR ord main st) p [.switchEnd id]) :
    (findOffsets {} 0 (allIR ord main st)).swEnd id = p := by
  obtain ⟨A, B, h1, h2⟩ := ha
  have hc : (allIR ord main st).countP (isSE id) ≤ 1 := by
    have := count_all (counting_se id) ord h hn
    omega
  have h0 := countP_one hc h1 (by simp [isSE])
  rw [h1, findOffsets_append]
  simp only [List.cons_append, List.nil_append, findOffsets]
  rw [findOffsets_swEnd id B _ _ h0.1]
  simp [Layout.note, update, h2]

/-- Every instruction has the length announced for it. -/
theorem link_len {offs x c} (hx : x ∈ allIR ord main st)
    (hc : x.toVM ord offs (findOffsets {} 0 (allIR ord main st)) = .ok c) : c.length = x.len := by
  cases x with
  | lit i => simp only [IR.toVM, Except.ok.injEq] at hc; subst hc; rfl
  | call k =>
    simp only [IR.toVM] at hc
    split at hc
    · simp only [Except.ok.injEq] at hc; subst hc; rfl
    · simp at hc
  | blockStart => simp only [IR.toVM, Except.ok.injEq] at hc; subst hc; rfl
  | blockEnd => simp only [IR.toVM, Except.ok.injEq] at hc; subst hc; rfl
  | switchStart id n e =>
    simp only [IR.toVM, Except.ok.injEq] at hc
    subst hc
    have hs := sizes_all ord h hx
    simp only [List.length_append, dispatch_length, (ord.cases_perm id _).length_eq, link_size h hn hs,
      List.length_cons, List.length_nil, IR.len]
  | switchCase => simp only [IR.toVM, Except.ok.injEq] at hc; subst hc; rfl
  | switchEnd => simp only [IR.toVM, Except.ok.injEq] at hc; subst hc; rfl
end

/-- What is known of a linked program. -/
structure Linked (ord : Orders) (offs : List (MKey × Nat)) (L : Layout) (sw : List Nat) (all : List IR) (prog : Program) : Prop where
  code : ∀ {p x}, At all p [x] → ∃ c, x.toVM ord offs L = .ok c ∧ Code prog p c
  bStart : ∀ {p id}, At all p [.blockStart id] → L.bStart id = p
  bEnd : ∀ {p id}, At all p [.blockEnd id] → L.bEnd id = p
  swEnd : ∀ {p id}, At all p [.switchEnd id] → L.swEnd id = p
  case : ∀ {p id w}, At all p [.switchCase id w false] → ∀ q, (w, q) ∈ L.swCases id ↔ q = p
  keys : ∀ {id n}, sw[id]? = some n → ∀ k, k ∈ keys (L.swCases id) ↔ k < n
  size : ∀ {id n}, sw[id]? = some n → (L.swCases id).length = n
  sizes : ∀ {id n e}, IR.switchStart id n e ∈ all → sw[id]? = some n
  nodup : ∀ id, (Verif.keys (L.swCases id)).Nodup

theorem linked {ord : Orders} {main : List IR} {st : CState} {prog : Program}
    (h : Emits Q .code {} main st) (hn : st.nullNarrow = false)
    (hl : linkProgram ord main st = .ok prog) :
    Linked ord (methodOffsets (irLen main + 1) (ord.methods st.bodies))
      (findOffsets {} 0 (allIR ord main st)) st.switches (allIR ord main st) prog ∧ prog.errors = st.errors := by
  unfold linkProgram at hl
  simp only at hl
  rw [show main ++ [lit .halt 0] ++ concatMethods (ord.methods st.bodies) = allIR ord main st from rfl] at hl
  split at hl
  · simp at hl
  · rename_i instrs hv
    simp only [Except.ok.injEq] at hl
    subst hl
    refine ⟨⟨?_, fun ha => link_bStart h hn ha, fun ha => link_bEnd h hn ha, fun ha => link_swEnd h hn ha,
      fun ha q => link_case h hn ha q, fun hs k => link_key_iff h hn hs, fun hs => link_size h hn hs,
      fun hm => sizes_all ord h hm, fun id => link_keys h hn id⟩, rfl⟩
    intro p x ⟨A, B, h1, h2⟩
    rw [List.singleton_append] at h1
    rw [h1] at hv
    obtain ⟨ca, cx, cb, h3, h4, h5, h6⟩ := toVM_split hv
    rw [← h1] at h3 h4
    refine ⟨cx, h4, ?_⟩
    have hlen : ca.length = p := by
      rw [← h2]
      refine toVM_length (fun y hy c hc => link_len h hn ?_ hc) h3
      rw [h1]; simp [hy]
    intro i y hy
    simp only
    rw [h6, List.getElem?_append_right (by omega), List.getElem?_append_left]
    · rw [show p + i - ca.length = i by omega]; exact hy
    · have := (List.getElem?_eq_some_iff.1 hy).1; omega
end

section
variable {R T : Type} {ro : ReaderOps R} {fo : FieldOps T} {prog : Program}

/-- Falling through the dispatch of a switch. -/
theorem dispatch_miss : ∀ (cs : List (Nat × Nat)) {p : Nat}, Code prog p (dispatch cs) →
    ∀ (fr : Frame) fl (r : R) (t : T), (∀ x ∈ cs, fr.long.toInt ≠ (x.1 : Int)) →
    ∃ fr', fr'.long = fr.long ∧ Reaches ro fo prog ⟨p, fr, fl, r, t⟩ ⟨p + 2 * cs.length, fr', fl, r, t⟩ := by
  intro cs
  induction cs with
  | nil => intro p _ fr fl r t _; exact ⟨fr, rfl, Reaches.refl _ _ _ _⟩
  | cons x cs ih =>
    obtain ⟨v, off⟩ := x
    intro p hc fr fl r t hm
    have h0 := hc.get 0 _ rfl
    have h1 := hc.get 1 _ rfl
    have hne : decide (fr.long.toInt = (v : Int)) = false := by
      have := hm (v, off) (by simp); simpa using this
    have hc' : Code prog (p + 2) (dispatch cs) := Code.right (a := [⟨.evalEqual, v⟩, ⟨.condJump, (off + 1 : Nat)⟩]) hc
    obtain ⟨fr', hf, hr⟩ := ih hc' { fr with cond := decide (fr.long.toInt = (v : Int)) } fl r t
      (fun y hy => hm y (by simp [hy]))
    refine ⟨fr', hf, ((reaches_evalEqual h0 fr fl r t).trans (reaches_condJump_false h1 _ hne fl r t)).trans ?_⟩
    have e : p + 2 * ((v, off) :: cs).length = p + 2 + 2 * cs.length := by simp; omega
    rw [e]; exact hr

/-- The dispatch of a switch jumps behind the right case. -/
theorem dispatch_hit : ∀ (cs : List (Nat × Nat)) {p : Nat}, Code prog p (dispatch cs) → (keys cs).Nodup →
    ∀ (fr : Frame) fl (r : R) (t : T) {v off : Nat}, fr.long.toInt = (v : Int) → (v, off) ∈ cs →
    ∃ fr', fr'.long = fr.long ∧ Reaches ro fo prog ⟨p, fr, fl, r, t⟩ ⟨off + 1, fr', fl, r, t⟩ := by
  intro cs
  induction cs with
  | nil => intro p _ _ fr fl r t v off _ h; simp at h
  | cons x cs ih =>
    obtain ⟨v', off'⟩ := x
    intro p hc hn fr fl r t v off hv hm
    have h0 := hc.get 0 _ rfl
    have h1 := hc.get 1 _ rfl
    simp only [keys, List.map_cons, List.nodup_cons] at hn
    by_cases he : v = v'
    · subst he
      have : off = off' := by
        rcases List.mem_cons.1 hm with hm | hm
        · simpa using hm
        · exact absurd (List.mem_map.2 ⟨(v, off), hm, rfl⟩) hn.1
      subst this
      refine ⟨{ fr with cond := decide (fr.long.toInt = (v : Int)) }, rfl,
        (reaches_evalEqual h0 fr fl r t).trans (reaches_condJump_true h1 _ ?_ fl r t)⟩
      simp [hv]
    · have hm' : (v, off) ∈ cs := by
        rcases List.mem_cons.1 hm with hm | hm
        · simp only [Prod.mk.injEq] at hm; exact absurd hm.1 he
        · exact hm
      have hne : decide (fr.long.toInt = (v' : Int)) = false := by
        simp only [decide_eq_false_iff_not, hv]; omega
      have hc' : Code prog (p + 2) (dispatch cs) := Code.right (a := [⟨.evalEqual, v'⟩, ⟨.condJump, (off' + 1 : Nat)⟩]) hc
      obtain ⟨fr', hf, hr⟩ := ih hc' hn.2 { fr with cond := decide (fr.long.toInt = (v' : Int)) } fl r t hv hm'
      exact ⟨fr', hf, ((reaches_evalEqual h0 fr fl r t).trans (reaches_condJump_false h1 _ hne fl r t)).trans hr⟩
end
end Verif
