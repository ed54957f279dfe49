import Verif.Compiler.WF
import Verif.Compiler.Mono
import Verif.VM.Recover
/-
Compiled programs have no negative addresses, and end with a return or a halt.
-/
namespace Verif

theorem allIR_end (ord : Orders) (main : List IR) (st : CState) :
    ∃ init op arg, allIR ord main st = init ++ [lit op arg] ∧ (op = .ret ∨ op = .halt) := by
  unfold allIR
  generalize ord.methods st.bodies = ms
  suffices ∀ (ms : List (MKey × List IR)) (pre : List IR),
      (∃ i op arg, pre = i ++ [lit op arg] ∧ (op = .ret ∨ op = .halt)) →
      ∃ i op arg, pre ++ concatMethods ms = i ++ [lit op arg] ∧ (op = .ret ∨ op = .halt) from
    this ms _ ⟨main, _, _, rfl, .inr rfl⟩
  intro ms
  induction ms with
  | nil => intro pre h; simpa [concatMethods] using h
  | cons x ms ih =>
    obtain ⟨k, b⟩ := x
    intro pre h
    have := ih (pre ++ (b ++ [lit .ret noopField])) ⟨pre ++ b, .ret, noopField, by simp, .inl rfl⟩
    simpa [concatMethods] using this

theorem toVM_snoc {ord offs L op arg} : ∀ {l : List IR} {c}, toVM ord offs L (l ++ [lit op arg]) = .ok c →
    ∃ c', c = c' ++ [⟨op, arg⟩] := by
  intro l
  induction l with
  | nil =>
    intro c h
    simp only [List.nil_append, toVM, lit, IR.toVM, List.append_nil, Except.ok.injEq] at h
    exact ⟨[], h.symm⟩
  | cons x l ih =>
    intro c h
    simp only [List.cons_append, toVM] at h
    cases h1 : x.toVM ord offs L with
    | error e => rw [h1] at h; simp at h
    | ok a =>
      cases h2 : toVM ord offs L (l ++ [lit op arg]) with
      | error e => rw [h1, h2] at h; simp at h
      | ok b =>
        rw [h1, h2] at h
        simp only [Except.ok.injEq] at h
        obtain ⟨c', rfl⟩ := ih h2
        exact ⟨a ++ c', by rw [← h, List.append_assoc]⟩

theorem link_guarded {Q : BodyPred} (ord : Orders) {main st prog} (h : Emits Q .code {} main st)
    (hl : linkProgram ord main st = .ok prog) : prog.Guarded := by
  have her := h.errs (by intro x hx; simp at hx)
  have herr := all_of_parts (P := IR.errOK st.errors.length) ord her.1 her.2
    (.inr (.inr ⟨rfl, by omega, by omega⟩)) (.inr (.inl rfl))
  obtain ⟨init, op0, arg0, hlast, hop0⟩ := allIR_end ord main st
  unfold linkProgram at hl
  simp only [show main ++ [lit .halt 0] ++ concatMethods (ord.methods st.bodies) = allIR ord main st from rfl] at hl
  split at hl
  · simp at hl
  · rename_i c hc
    simp only [Except.ok.injEq] at hl
    subst hl
    constructor
    · intro i hi hop
      obtain ⟨x, cx, hx, hcx, hi⟩ := mem_toVM hc hi
      have hxe := herr x hx
      cases x with
      | lit j =>
        simp only [IR.toVM, Except.ok.injEq] at hcx
        subst hcx
        simp only [List.mem_cons, List.not_mem_nil, or_false] at hi
        subst hi
        obtain ⟨op, arg⟩ := i
        simp only at hop
        simp only [IR.errOK] at hxe
        rcases hop with rfl | rfl | rfl <;> simp [Op.isPlain] at hxe
      | call k =>
        simp only [IR.toVM] at hcx
        split at hcx
        · simp only [Except.ok.injEq] at hcx
          subst hcx
          simp only [List.mem_cons, List.not_mem_nil, or_false] at hi
          subst hi
          simp only; omega
        · simp at hcx
      | blockStart id =>
        simp only [IR.toVM, Except.ok.injEq] at hcx
        subst hcx
        simp only [List.mem_cons, List.not_mem_nil, or_false] at hi
        rcases hi with rfl | rfl | rfl | rfl | rfl | rfl | rfl | rfl | rfl <;> simp at hop <;> simp only <;> omega
      | blockEnd id =>
        simp only [IR.toVM, Except.ok.injEq] at hcx
        subst hcx
        simp only [List.mem_cons, List.not_mem_nil, or_false] at hi
        rcases hi with rfl | rfl | rfl | rfl | rfl <;> simp at hop <;> simp only <;> omega
      | switchStart id size e =>
        simp only [IR.toVM, Except.ok.injEq] at hcx
        subst hcx
        simp only [List.mem_append, List.mem_cons, List.not_mem_nil, or_false] at hi
        rcases hi with hi | hi
        · rcases mem_dispatch hi with ⟨v, rfl⟩ | ⟨y, hy, rfl⟩
          · simp at hop
          · simp only; omega
        · subst hi; simp at hop
      | switchCase id w b =>
        simp only [IR.toVM, Except.ok.injEq] at hcx
        subst hcx
        simp only [List.mem_cons, List.not_mem_nil, or_false] at hi
        subst hi
        simp only; omega
      | switchEnd id =>
        simp only [IR.toVM, Except.ok.injEq] at hcx
        subst hcx
        simp at hi
    · intro i hi
      rw [hlast] at hc
      obtain ⟨c', rfl⟩ := toVM_snoc hc
      simp at hi
      subst hi
      rcases hop0 with rfl | rfl <;> simp

theorem compile_guarded {ord : Orders} {lax : Bool} {w r : Schema} {prog} (h : compile ord lax w r = .ok prog) :
    prog.Guarded := by
  obtain ⟨main, st, h1, h2⟩ := compile_ok h
  exact link_guarded ord (emits_type ord lax w.env r.env _ _ _ _ _ _ h1) h2

end Verif
