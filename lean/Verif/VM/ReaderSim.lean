import Verif.VM.Eval
import Verif.Wire.Reader
/-
Readers that answer alike give evaluations that end alike. Which error is returned may
differ, as `E` says.
-/
namespace Verif
variable {R R' T : Type}

/-- Same value, related readers; or related errors. -/
inductive ExRel (Rel : R → R' → Prop) (E : Err → Err → Prop) {α : Type} :
    Except Err (α × R) → Except Err (α × R') → Prop
  | ok {a r r'} : Rel r r' → ExRel Rel E (.ok (a, r)) (.ok (a, r'))
  | err {e e'} : E e e' → ExRel Rel E (.error e) (.error e')

/-- Same result, related readers; or related errors; or both out of fuel. -/
inductive OutRel (Rel : R → R' → Prop) (E : Err → Err → Prop) : Out (Ret R T) → Out (Ret R' T) → Prop
  | done {nil pc r r' t} : Rel r r' → OutRel Rel E (.done ⟨nil, pc, r, t⟩) (.done ⟨nil, pc, r', t⟩)
  | err {e e'} : E e e' → OutRel Rel E (.err e) (.err e')
  | timeout : OutRel Rel E .timeout .timeout

/-- As `OutRel`, or the first one stopped with a certain error. -/
inductive StopRel (St : Err → Prop) (Rel : R → R' → Prop) (E : Err → Err → Prop) : Out (Ret R T) → Out (Ret R' T) → Prop
  | done {nil pc r r' t} : Rel r r' → StopRel St Rel E (.done ⟨nil, pc, r, t⟩) (.done ⟨nil, pc, r', t⟩)
  | err {e e'} : E e e' → StopRel St Rel E (.err e) (.err e')
  | timeout : StopRel St Rel E .timeout .timeout
  | stop {e y} : St e → StopRel St Rel E (.err e) y

theorem evalInner_stop {o : ReaderOps R} {o' : ReaderOps R'} {Rel : R → R' → Prop} {E : Err → Err → Prop} {St : Err → Prop}
    (hE : ∀ e, E e e) (hread : ∀ arg fr r r', Rel r r' → (∃ e, doRead o arg fr r = .error e ∧ St e) ∨
      ExRel Rel E (doRead o arg fr r) (doRead o' arg fr r'))
    (fo : FieldOps T) (p : Program) : ∀ (n pc : Nat) (fr : Frame) (fl : Bool) {r r'} (t : T),
    Rel r r' → StopRel St Rel E (evalInner o fo p n pc fr fl r t) (evalInner o' fo p n pc fr fl r' t) := by
  intro n
  induction n with
  | zero => intro pc fr fl r r' t h; exact .timeout
  | succ n ih =>
    intro pc fr fl r r' t h
    rw [Verif.evalInner, Verif.evalInner]
    cases p.instrs[pc]? with
    | none => exact .done h
    | some i =>
      rcases i with ⟨op, arg⟩
      cases op <;> simp only
      case read =>
        rcases hread arg fr r r' h with ⟨e, h1, h2⟩ | this
        · rw [h1]; exact .stop h2
        generalize Verif.doRead o arg fr r = x at this ⊢
        generalize Verif.doRead o' arg fr r' = y at this ⊢
        cases this with
        | ok h => exact ih _ _ _ _ h
        | err h => exact .err h
      case set =>
        cases doSet fo arg fr t with
        | error e => exact .err (hE _)
        | ok t' => exact ih _ _ _ _ h
      case setDefault =>
        cases fo.setDefault t arg with
        | error e => exact .err (hE _)
        | ok t' => exact ih _ _ _ _ h
      case enter =>
        cases fo.get t arg with
        | error e => exact .err (hE _)
        | ok sub =>
          simp only
          have := ih (pc + 1) {} false sub h
          generalize Verif.evalInner o fo p n (pc + 1) {} false r sub = x at this ⊢
          generalize Verif.evalInner o' fo p n (pc + 1) {} false r' sub = y at this ⊢
          cases this with
          | done h =>
            simp only
            split
            · exact .err (hE _)
            · exact ih _ _ _ _ h
          | err h => exact .err h
          | timeout => exact .timeout
          | stop h => exact .stop h
      case exit =>
        cases fo.finalize t with
        | error e => exact .err (hE _)
        | ok t' => exact .done h
      case setExitNull => exact ih _ _ _ _ h
      case appendArray =>
        cases fo.appendArray t with
        | error e => exact .err (hE _)
        | ok sub =>
          simp only
          have := ih (pc + 1) {} false sub h
          generalize Verif.evalInner o fo p n (pc + 1) {} false r sub = x at this ⊢
          generalize Verif.evalInner o' fo p n (pc + 1) {} false r' sub = y at this ⊢
          cases this with
          | done h =>
            simp only
            split
            · exact .err (hE _)
            · exact ih _ _ _ _ h
          | err h => exact .err h
          | timeout => exact .timeout
          | stop h => exact .stop h
      case appendMap =>
        cases fo.appendMap t fr.string with
        | error e => exact .err (hE _)
        | ok sub =>
          simp only
          have := ih (pc + 1) {} false sub h
          generalize Verif.evalInner o fo p n (pc + 1) {} false r sub = x at this ⊢
          generalize Verif.evalInner o' fo p n (pc + 1) {} false r' sub = y at this ⊢
          cases this with
          | done h =>
            simp only
            split
            · exact .err (hE _)
            · exact ih _ _ _ _ h
          | err h => exact .err h
          | timeout => exact .timeout
          | stop h => exact .stop h
      case call =>
        split
        · exact .err (hE _)
        · have := ih arg.toNat {} false t h
          generalize Verif.evalInner o fo p n arg.toNat {} false r t = x at this ⊢
          generalize Verif.evalInner o' fo p n arg.toNat {} false r' t = y at this ⊢
          cases this with
          | done h => exact ih _ _ _ _ h
          | err h => exact .err h
          | timeout => exact .timeout
          | stop h => exact .stop h
      case ret => exact .done h
      case jump =>
        split
        · exact .err (hE _)
        · exact ih _ _ _ _ h
      case evalGreater => exact ih _ _ _ _ h
      case evalEqual => exact ih _ _ _ _ h
      case condJump =>
        split
        · split
          · exact .err (hE _)
          · exact ih _ _ _ _ h
        · exact ih _ _ _ _ h
      case addLong => exact ih _ _ _ _ h
      case setLong => exact ih _ _ _ _ h
      case setInt => exact ih _ _ _ _ h
      case multLong => exact ih _ _ _ _ h
      case hintSize =>
        cases fo.hintSize t fr.long with
        | error e => exact .err (hE _)
        | ok t' => exact ih _ _ _ _ h
      case pushLoop =>
        have := ih (pc + 1) {} false t h
        generalize Verif.evalInner o fo p n (pc + 1) {} false r t = x at this ⊢
        generalize Verif.evalInner o' fo p n (pc + 1) {} false r' t = y at this ⊢
        cases this with
        | done h => exact ih _ _ _ _ h
        | err h => exact .err h
        | timeout => exact .timeout
        | stop h => exact .stop h
      case popLoop => exact .done h
      case halt =>
        split
        · exact .done h
        · split
          · exact .err (hE _)
          · split <;> exact .err (hE _)
      case nullField =>
        cases fo.nullField t arg with
        | error e => exact .err (hE _)
        | ok t' => exact ih _ _ _ _ h

/-- `Rel` relates readers that answer alike. -/
structure ReaderSim (o : ReaderOps R) (o' : ReaderOps R') (Rel : R → R' → Prop) (E : Err → Err → Prop) : Prop where
  refl : ∀ e, E e e
  byteReader : o.byteReader = o'.byteReader
  readByte : o.byteReader = true → ∀ r r', Rel r r' → ∃ r1 r1', Rel r1 r1' ∧
    ((∃ b, o.readByte r = (.ok b, r1) ∧ o'.readByte r' = (.ok b, r1')) ∨
     ∃ e e', o.readByte r = (.error e, r1) ∧ o'.readByte r' = (.error e', r1') ∧ E e e')
  readFull : ∀ r r' n, Rel r r' → ExRel Rel E (o.readFull r n) (o'.readFull r' n)
  size : ∀ r r', Rel r r' → o.size r = o'.size r'

section
variable {o : ReaderOps R} {o' : ReaderOps R'} {Rel : R → R' → Prop} {E : Err → Err → Prop}

theorem ExRel.mapOk {α β : Type} {g : α → β} {x : Except Err (α × R)} {y : Except Err (α × R')}
    (h : ExRel Rel E x y) : ExRel Rel E (mapOk g x) (mapOk g y) := by
  cases h with
  | ok h => exact .ok h
  | err h => exact .err h

theorem ExRel.bindOk {α β : Type} {x : Except Err (α × R)} {y : Except Err (α × R')}
    {f : α → R → Except Err (β × R)} {f' : α → R' → Except Err (β × R')}
    (h : ExRel Rel E x y) (hf : ∀ a r r', Rel r r' → ExRel Rel E (f a r) (f' a r')) :
    ExRel Rel E (bindOk x f) (bindOk y f') := by
  cases h with
  | ok h => exact hf _ _ _ h
  | err h => exact .err h

variable (H : ReaderSim o o' Rel E)
include H

theorem ReaderSim.next {r r'} (h : Rel r r') : ExRel Rel E (o.next r) (o'.next r') := by
  unfold ReaderOps.next
  cases hb : o.byteReader
  · rw [← H.byteReader, hb]
    simp only [Bool.false_eq_true, if_false]
    have := H.readFull r r' 1 h
    generalize o.readFull r 1 = x at this ⊢
    generalize o'.readFull r' 1 = y at this ⊢
    cases this with
    | ok h =>
      rename_i a r1 r1'
      cases a
      · exact .err (H.refl _)
      · exact .ok h
    | err h => exact .err h
  · rw [← H.byteReader, hb]
    simp only [if_true]
    obtain ⟨r1, r1', h1, ⟨b, h2, h3⟩ | ⟨e, e', h2, h3, h4⟩⟩ := H.readByte hb r r' h
    · rw [h2, h3]; exact .ok h1
    · rw [h2, h3]; exact .err h4

theorem ReaderSim.readBool {r r'} (h : Rel r r') : ExRel Rel E (readBool o r) (readBool o' r') := by
  unfold Verif.readBool
  cases hb : o.byteReader
  · rw [← H.byteReader, hb]
    simp only [Bool.false_eq_true, if_false]
    have := H.readFull r r' 1 h
    generalize o.readFull r 1 = x at this ⊢
    generalize o'.readFull r' 1 = y at this ⊢
    cases this with
    | ok h =>
      rename_i a r1 r1'
      cases a
      · exact .err (H.refl _)
      · exact .ok h
    | err h => exact .err h
  · rw [← H.byteReader, hb]
    simp only [if_true]
    obtain ⟨r1, r1', h1, ⟨b, h2, h3⟩ | ⟨e, e', h2, h3, h4⟩⟩ := H.readByte hb r r' h
    · rw [h2, h3]; exact .ok h1
    · rw [h2, h3]; exact .ok h1

theorem ReaderSim.readVarLoop : ∀ (n : Nat) (v : BitVec 64) (s : Nat) {r r'}, Rel r r' →
    ExRel Rel E (readVarLoop o n v s r) (readVarLoop o' n v s r') := by
  intro n
  induction n with
  | zero => intro v s r r' h; exact .err (H.refl _)
  | succ n ih =>
    intro v s r r' h
    rw [Verif.readVarLoop, Verif.readVarLoop]
    have := H.next h
    generalize o.next r = x at this ⊢
    generalize o'.next r' = y at this ⊢
    cases this with
    | ok h =>
      simp only
      split
      · exact .ok h
      · exact ih _ _ h
    | err h => exact .err h

theorem ReaderSim.readVar {r r'} (h : Rel r r') : ExRel Rel E (readVar o r) (readVar o' r') := by
  unfold Verif.readVar
  rw [H.size r r' h]
  exact H.readVarLoop _ _ _ h

theorem ReaderSim.readLong {r r'} (h : Rel r r') : ExRel Rel E (readLong o r) (readLong o' r') :=
  (H.readVar h).mapOk

theorem ReaderSim.readSized (e : Err) {r r'} (h : Rel r r') : ExRel Rel E (readSized e o r) (readSized e o' r') := by
  refine (H.readLong h).bindOk ?_
  intro n r r' h
  split
  · exact .err (H.refl _)
  · split
    · exact .ok h
    · exact H.readFull _ _ _ h

theorem ReaderSim.readFixed (n : Int) {r r'} (h : Rel r r') : ExRel Rel E (readFixed o n r) (readFixed o' n r') := by
  unfold Verif.readFixed
  split
  · exact .err (H.refl _)
  · exact H.readFull _ _ _ h

theorem ReaderSim.doRead (arg : Int) (fr : Frame) {r r'} (h : Rel r r') :
    ExRel Rel E (doRead o arg fr r) (doRead o' arg fr r') := by
  unfold Verif.doRead
  repeat' split
  · exact .ok h
  · exact (H.readBool h).mapOk
  · exact (H.readVar h).mapOk.mapOk
  · exact (H.readLong h).mapOk
  · exact (H.readLong h).mapOk
  · exact (H.readFull _ _ _ h).mapOk.mapOk
  · exact (H.readFull _ _ _ h).mapOk.mapOk
  · exact (H.readSized _ h).mapOk
  · exact (H.readSized _ h).mapOk
  · exact (H.readFixed _ h).mapOk

theorem ReaderSim.evalInner (fo : FieldOps T) (p : Program) (n pc : Nat) (fr : Frame) (fl : Bool) {r r'} (t : T)
    (h : Rel r r') : OutRel Rel E (evalInner o fo p n pc fr fl r t) (evalInner o' fo p n pc fr fl r' t) := by
  have := evalInner_stop (St := fun _ => False) H.refl (fun arg fr r r' h => .inr (H.doRead arg fr h)) fo p n pc fr fl t h
  generalize Verif.evalInner o fo p n pc fr fl r t = X at this ⊢
  generalize Verif.evalInner o' fo p n pc fr fl r' t = Y at this ⊢
  cases this with
  | done h => exact .done h
  | err h => exact .err h
  | timeout => exact .timeout
  | stop h => exact h.elim

/-- Whole evaluations. -/
theorem ReaderSim.evaluates_ok (fo : FieldOps T) (p : Program) {r r'} {t t1 : T} (h : Rel r r')
    {r1'} (hx : Evaluates o' fo p r' t (.ok (r1', t1))) :
    ∃ r1, Rel r1 r1' ∧ Evaluates o fo p r t (.ok (r1, t1)) := by
  obtain ⟨n, hn⟩ := hx
  simp only [evalProg] at hn
  have := H.evalInner fo p n 0 {} false t h
  generalize hX : Verif.evalInner o fo p n 0 {} false r t = X at this
  generalize Verif.evalInner o' fo p n 0 {} false r' t = Y at this hn
  cases this with
  | done h =>
    simp only [Out.done.injEq, Prod.mk.injEq] at hn
    obtain ⟨rfl, rfl⟩ := hn
    exact ⟨_, h, n, by simp only [evalProg, hX]⟩
  | err h => cases hn
  | timeout => cases hn

theorem ReaderSim.evaluates_err (fo : FieldOps T) (p : Program) {r r'} {t : T} (h : Rel r r')
    {e'} (hx : Evaluates o' fo p r' t (.error e')) :
    ∃ e, E e e' ∧ Evaluates o fo p r t (.error e) := by
  obtain ⟨n, hn⟩ := hx
  simp only [evalProg] at hn
  have := H.evalInner fo p n 0 {} false t h
  generalize hX : Verif.evalInner o fo p n 0 {} false r t = X at this
  generalize Verif.evalInner o' fo p n 0 {} false r' t = Y at this hn
  cases this with
  | done h => cases hn
  | err h =>
    cases hn
    exact ⟨_, h, n, by simp only [evalProg, hX]⟩
  | timeout => cases hn
end
end Verif
