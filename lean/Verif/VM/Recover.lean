import Verif.VM.Lemmas
/-
`Eval` with the parts `evalInner` of Verif/VM/Eval.lean leaves out: where the program counter
stands when something fails, the handler that turns panics into errors, and the depth of the
Go stack.
-/
namespace Verif
variable {R T : Type}

/-- How an activation ends. `failed e panics pc`: with the error `e`, which is a Go panic if
`panics`, while the shared program counter is `pc`. `overflow`: it needed more nested
activations than the stack has room for; the Go runtime then ends the process, no handler
runs. -/
inductive Stop (α : Type) where
  | done (a : α)
  | failed (e : Err) (panics : Bool) (pc : Int)
  | overflow
  | timeout

/-- `evalInner`, v10/vm/eval.go:35-160, as `evalInner` in Verif/VM/Eval.lean, with two
additions. The second number is the count of further nested activations the stack has room
for. Failures carry the value of `*pc`: an instruction fetched at a negative address panics with
that address in `*pc`; `target.Get(..)`, `AppendArray()` and `AppendMap(..)` (87,98,105) are
evaluated after `*pc += 1`; `NullField` after a nested activation runs with the `*pc` this has
left. The errors of the readers are returned, not panics, except that of `make` with a negative
length (readers.go:161), which is the only `panic` among them. -/
def evalAt (ro : ReaderOps R) (fo : FieldOps T) (p : Program) :
    Nat → Nat → Nat → Frame → Bool → R → T → Stop (Ret R T)
  | 0, _, _, _, _, _, _ => .timeout
  | n + 1, d, pc, fr, fl, r, t =>
    match p.instrs[pc]? with
    | none => .done ⟨false, pc, r, t⟩
    | some ⟨op, arg⟩ =>
      match op with
      | .read => match doRead ro arg fr r with
        | .error e => .failed e (e == .panic) pc
        | .ok (fr', r') => evalAt ro fo p n d (pc + 1) fr' fl r' t
      | .set => match doSet fo arg fr t with
        | .error e => .failed e true pc
        | .ok t' => evalAt ro fo p n d (pc + 1) fr fl r t'
      | .setDefault => match fo.setDefault t arg with
        | .error e => .failed e true pc
        | .ok t' => evalAt ro fo p n d (pc + 1) fr fl r t'
      | .enter => match fo.get t arg with
        | .error e => .failed e true (pc + 1 : Nat)
        | .ok sub => match d with
          | 0 => .overflow
          | d' + 1 => match evalAt ro fo p n d' (pc + 1) {} false r sub with
            | .timeout => .timeout
            | .overflow => .overflow
            | .failed e b at' => .failed e b at'
            | .done ret => match nullIf fo ret.nil (fo.put t arg ret.t) arg with
              | .error e => .failed e true ret.pc
              | .ok t' => evalAt ro fo p n (d' + 1) (ret.pc + 1) fr fl ret.r t'
      | .exit => match fo.finalize t with
        | .error e => .failed e true pc
        | .ok t' => .done ⟨fl, pc, r, t'⟩
      | .setExitNull => evalAt ro fo p n d (pc + 1) fr true r t
      | .appendArray => match fo.appendArray t with
        | .error e => .failed e true (pc + 1 : Nat)
        | .ok sub => match d with
          | 0 => .overflow
          | d' + 1 => match evalAt ro fo p n d' (pc + 1) {} false r sub with
            | .timeout => .timeout
            | .overflow => .overflow
            | .failed e b at' => .failed e b at'
            | .done ret => match nullIf fo ret.nil (fo.putArray t ret.t) (-1) with
              | .error e => .failed e true ret.pc
              | .ok t' => evalAt ro fo p n (d' + 1) (ret.pc + 1) fr fl ret.r t'
      | .appendMap => match fo.appendMap t fr.string with
        | .error e => .failed e true (pc + 1 : Nat)
        | .ok sub => match d with
          | 0 => .overflow
          | d' + 1 => match evalAt ro fo p n d' (pc + 1) {} false r sub with
            | .timeout => .timeout
            | .overflow => .overflow
            | .failed e b at' => .failed e b at'
            | .done ret => match nullIf fo ret.nil (fo.putMap t fr.string ret.t) (-1) with
              | .error e => .failed e true ret.pc
              | .ok t' => evalAt ro fo p n (d' + 1) (ret.pc + 1) fr fl ret.r t'
      | .call => match d with
        | 0 => .overflow
        | d' + 1 => if arg < 0 then .failed .panic true arg else
          match evalAt ro fo p n d' arg.toNat {} false r t with
          | .timeout => .timeout
          | .overflow => .overflow
          | .failed e b at' => .failed e b at'
          | .done ret => evalAt ro fo p n (d' + 1) (pc + 1) fr fl ret.r ret.t
      | .ret => .done ⟨false, pc, r, t⟩
      | .jump => if arg < 0 then .failed .panic true arg else evalAt ro fo p n d arg.toNat fr fl r t
      | .evalGreater =>
        evalAt ro fo p n d (pc + 1)
          { fr with cond := decide (arg < fr.long.toInt) } fl r t
      | .evalEqual =>
        evalAt ro fo p n d (pc + 1) { fr with cond := decide (fr.long.toInt = arg) } fl r t
      | .condJump =>
        if fr.cond then
          if arg < 0 then .failed .panic true arg else evalAt ro fo p n d arg.toNat fr fl r t
        else evalAt ro fo p n d (pc + 1) fr fl r t
      | .addLong =>
        evalAt ro fo p n d (pc + 1) { fr with long := fr.long + BitVec.ofInt 64 arg } fl r t
      | .setLong => evalAt ro fo p n d (pc + 1) { fr with long := BitVec.ofInt 64 arg } fl r t
      | .setInt => evalAt ro fo p n d (pc + 1) { fr with int := BitVec.ofInt 32 arg } fl r t
      | .multLong =>
        evalAt ro fo p n d (pc + 1) { fr with long := fr.long * BitVec.ofInt 64 arg } fl r t
      | .hintSize => match fo.hintSize t fr.long with
        | .error e => .failed e true pc
        | .ok t' => evalAt ro fo p n d (pc + 1) fr fl r t'
      | .pushLoop => match d with
        | 0 => .overflow
        | d' + 1 => match evalAt ro fo p n d' (pc + 1) {} false r t with
          | .timeout => .timeout
          | .overflow => .overflow
          | .failed e b at' => .failed e b at'
          | .done ret => evalAt ro fo p n (d' + 1) (ret.pc + 1) fr fl ret.r ret.t
      | .popLoop => .done ⟨false, pc, r, t⟩
      | .halt =>
        if arg = 0 then .done ⟨false, pc, r, t⟩
        else if arg < 0 then .failed .panic true pc
        else match p.errors[arg.toNat - 1]? with
          | some m => .failed (.runtime m) false pc
          | none => .failed .panic true pc
      | .nullField => match fo.nullField t arg with
        | .error e => .failed e true pc
        | .ok t' => evalAt ro fo p n d (pc + 1) fr fl r t'

/-- What the caller of `Eval` sees. `error`: the call returns an error. `panics`: the call
panics. `killed`: the process has ended. -/
inductive CallEnd (R T : Type) where
  | returns (r : R) (t : T)
  | error
  | panics
  | killed
  | timeout

/-- `Eval`, v10/vm/eval.go:22-33, on a stack with room for `d` activations inside the first.
The handler (24-28) makes an error of a panic, but panics itself when
`program.Instructions[pc]` does not exist. -/
def evalGo (ro : ReaderOps R) (fo : FieldOps T) (p : Program) (fuel d : Nat) (r : R) (t : T) : CallEnd R T :=
  match evalAt ro fo p fuel d 0 {} false r t with
  | .done ret => .returns ret.r ret.t
  | .failed _ false _ => .error
  | .failed _ true pc => if 0 ≤ pc ∧ pc < p.instrs.length then .error else .panics
  | .overflow => .killed
  | .timeout => .timeout

/-- No jump or call to a negative address, and no instruction at the end that steps beyond it
before it calls the target. -/
structure Program.Guarded (p : Program) : Prop where
  jump : ∀ i ∈ p.instrs, i.op = .jump ∨ i.op = .condJump ∨ i.op = .call → 0 ≤ i.arg
  last : ∀ i, p.instrs[p.instrs.length - 1]? = some i → i.op ≠ .enter ∧ i.op ≠ .appendArray ∧ i.op ≠ .appendMap

/-- The outcome of `evalAt` and that of `evalInner`. -/
def Stop.Tells (len : Nat) (s : Stop (Ret R T)) (o : Out (Ret R T)) : Prop :=
  match s with
  | .done ret => o = .done ret ∧ (ret.nil = true → ret.pc < len)
  | .failed e _ pc => o = .err e ∧ 0 ≤ pc ∧ pc < len
  | .overflow => True
  | .timeout => o = .timeout

section
variable (ro : ReaderOps R) (fo : FieldOps T) (p : Program)

theorem evalAt_tells (hp : p.Guarded) : ∀ n d pc fr fl (r : R) (t : T),
    (evalAt ro fo p n d pc fr fl r t).Tells p.instrs.length (evalInner ro fo p n pc fr fl r t) := by
  intro n
  induction n with
  | zero => intro d pc fr fl r t; simp [evalAt, evalInner, Stop.Tells]
  | succ n ih =>
    intro d pc fr fl r t
    unfold evalAt evalInner
    cases hi : p.instrs[pc]? with
    | none => simp [Stop.Tells]
    | some i =>
      obtain ⟨op, arg⟩ := i
      have hpc : pc < p.instrs.length := (List.getElem?_eq_some_iff.1 hi).1
      have hmem : (⟨op, arg⟩ : Instr) ∈ p.instrs := List.mem_of_getElem? hi
      have hnext : op = .enter ∨ op = .appendArray ∨ op = .appendMap → pc + 1 < p.instrs.length := by
        intro ho
        rcases Nat.lt_or_ge (pc + 1) p.instrs.length with h | h
        · exact h
        · have := hp.last ⟨op, arg⟩ (by rw [show p.instrs.length - 1 = pc by omega]; exact hi)
          simp only at this
          rcases ho with rfl | rfl | rfl <;> simp at this
      have nest : ∀ (d' : Nat) (pc' : Nat) (sub : T),
          (∃ ret, evalAt ro fo p n d' pc' {} false r sub = .done ret ∧
            evalInner ro fo p n pc' {} false r sub = .done ret ∧ (ret.nil = true → ret.pc < p.instrs.length)) ∨
          (∃ e b q, evalAt ro fo p n d' pc' {} false r sub = .failed e b q ∧
            evalInner ro fo p n pc' {} false r sub = .err e ∧ 0 ≤ q ∧ q < p.instrs.length) ∨
          (evalAt ro fo p n d' pc' {} false r sub = .overflow) ∨
          (evalAt ro fo p n d' pc' {} false r sub = .timeout ∧ evalInner ro fo p n pc' {} false r sub = .timeout) := by
        intro d' pc' sub
        have := ih d' pc' {} false r sub
        cases hs : evalAt ro fo p n d' pc' {} false r sub <;> rw [hs] at this <;> simp only [Stop.Tells] at this
        · exact .inl ⟨_, rfl, this.1, this.2⟩
        · exact .inr (.inl ⟨_, _, _, rfl, this.1, this.2.1, this.2.2⟩)
        · exact .inr (.inr (.inl rfl))
        · exact .inr (.inr (.inr ⟨rfl, this⟩))
      have null : ∀ {b : Bool} {t0 : T} {i : Int} {e}, nullIf fo b t0 i = .error e → b = true := by
        intro b t0 i e h
        cases b
        · simp [nullIf] at h
        · rfl
      simp only
      cases op <;> simp only
      case read =>
        cases hx : doRead ro arg fr r <;> simp only
        · simp only [Stop.Tells]; exact ⟨trivial, by omega, by omega⟩
        · exact ih _ _ _ _ _ _
      case set => cases hx : doSet fo arg fr t <;> simp only; (simp only [Stop.Tells]; exact ⟨trivial, by omega, by omega⟩); exact ih _ _ _ _ _ _
      case setDefault => cases hx : fo.setDefault t arg <;> simp only; (simp only [Stop.Tells]; exact ⟨trivial, by omega, by omega⟩); exact ih _ _ _ _ _ _
      case nullField => cases hx : fo.nullField t arg <;> simp only; (simp only [Stop.Tells]; exact ⟨trivial, by omega, by omega⟩); exact ih _ _ _ _ _ _
      case hintSize => cases hx : fo.hintSize t fr.long <;> simp only; (simp only [Stop.Tells]; exact ⟨trivial, by omega, by omega⟩); exact ih _ _ _ _ _ _
      case exit => cases hx : fo.finalize t <;> simp only [Stop.Tells]; exact ⟨trivial, by omega, by omega⟩; exact ⟨trivial, fun _ => hpc⟩
      case setExitNull => exact ih _ _ _ _ _ _
      case evalGreater => exact ih _ _ _ _ _ _
      case evalEqual => exact ih _ _ _ _ _ _
      case addLong => exact ih _ _ _ _ _ _
      case setLong => exact ih _ _ _ _ _ _
      case setInt => exact ih _ _ _ _ _ _
      case multLong => exact ih _ _ _ _ _ _
      case ret => simp [Stop.Tells]
      case popLoop => simp [Stop.Tells]
      case jump =>
        have h0 : ¬ arg < 0 := by have := hp.jump _ hmem (by simp); simp only at this; omega
        rw [if_neg h0, if_neg h0]; exact ih _ _ _ _ _ _
      case condJump =>
        have h0 : ¬ arg < 0 := by have := hp.jump _ hmem (by simp); simp only at this; omega
        by_cases hc : fr.cond = true
        · rw [if_pos hc, if_pos hc, if_neg h0, if_neg h0]; exact ih _ _ _ _ _ _
        · rw [if_neg hc, if_neg hc]; exact ih _ _ _ _ _ _
      case halt =>
        by_cases h1 : arg = 0
        · rw [if_pos h1, if_pos h1]; simp [Stop.Tells]
        · rw [if_neg h1, if_neg h1]
          by_cases h2 : arg < 0
          · rw [if_pos h2, if_pos h2]; simp only [Stop.Tells]; exact ⟨trivial, by omega, by omega⟩
          · rw [if_neg h2, if_neg h2]
            cases p.errors[arg.toNat - 1]? <;> simp only [Stop.Tells] <;> exact ⟨trivial, by omega, by omega⟩
      case enter =>
        have hq := hnext (by simp)
        cases hx : fo.get t arg <;> simp only
        · simp only [Stop.Tells]; exact ⟨trivial, by omega, by omega⟩
        rename_i sub
        cases d with
        | zero => simp [Stop.Tells]
        | succ d' =>
          simp only
          rcases nest d' (pc + 1) sub with ⟨ret, h1, h2, h3⟩ | ⟨e, b, q, h1, h2, h3, h4⟩ | h1 | ⟨h1, h2⟩
          · rw [h1, h2]; simp only
            cases hn : nullIf fo ret.nil (fo.put t arg ret.t) arg <;> simp only
            · have := h3 (null hn); simp only [Stop.Tells]; exact ⟨trivial, by omega, by omega⟩
            · exact ih _ _ _ _ _ _
          · rw [h1, h2]; simp only [Stop.Tells]; exact ⟨trivial, h3, h4⟩
          · rw [h1]; simp [Stop.Tells]
          · rw [h1, h2]; simp [Stop.Tells]
      case appendArray =>
        have hq := hnext (by simp)
        cases hx : fo.appendArray t <;> simp only
        · simp only [Stop.Tells]; exact ⟨trivial, by omega, by omega⟩
        rename_i sub
        cases d with
        | zero => simp [Stop.Tells]
        | succ d' =>
          simp only
          rcases nest d' (pc + 1) sub with ⟨ret, h1, h2, h3⟩ | ⟨e, b, q, h1, h2, h3, h4⟩ | h1 | ⟨h1, h2⟩
          · rw [h1, h2]; simp only
            cases hn : nullIf fo ret.nil (fo.putArray t ret.t) (-1) <;> simp only
            · have := h3 (null hn); simp only [Stop.Tells]; exact ⟨trivial, by omega, by omega⟩
            · exact ih _ _ _ _ _ _
          · rw [h1, h2]; simp only [Stop.Tells]; exact ⟨trivial, h3, h4⟩
          · rw [h1]; simp [Stop.Tells]
          · rw [h1, h2]; simp [Stop.Tells]
      case appendMap =>
        have hq := hnext (by simp)
        cases hx : fo.appendMap t fr.string <;> simp only
        · simp only [Stop.Tells]; exact ⟨trivial, by omega, by omega⟩
        rename_i sub
        cases d with
        | zero => simp [Stop.Tells]
        | succ d' =>
          simp only
          rcases nest d' (pc + 1) sub with ⟨ret, h1, h2, h3⟩ | ⟨e, b, q, h1, h2, h3, h4⟩ | h1 | ⟨h1, h2⟩
          · rw [h1, h2]; simp only
            cases hn : nullIf fo ret.nil (fo.putMap t fr.string ret.t) (-1) <;> simp only
            · have := h3 (null hn); simp only [Stop.Tells]; exact ⟨trivial, by omega, by omega⟩
            · exact ih _ _ _ _ _ _
          · rw [h1, h2]; simp only [Stop.Tells]; exact ⟨trivial, h3, h4⟩
          · rw [h1]; simp [Stop.Tells]
          · rw [h1, h2]; simp [Stop.Tells]
      case call =>
        have h0 : ¬ arg < 0 := by have := hp.jump _ hmem (by simp); simp only at this; omega
        cases d with
        | zero => simp [Stop.Tells]
        | succ d' =>
          simp only
          rw [if_neg h0, if_neg h0]
          rcases nest d' arg.toNat t with ⟨ret, h1, h2, h3⟩ | ⟨e, b, q, h1, h2, h3, h4⟩ | h1 | ⟨h1, h2⟩
          · rw [h1, h2]; exact ih _ _ _ _ _ _
          · rw [h1, h2]; simp only [Stop.Tells]; exact ⟨trivial, h3, h4⟩
          · rw [h1]; simp [Stop.Tells]
          · rw [h1, h2]; simp [Stop.Tells]
      case pushLoop =>
        cases d with
        | zero => simp [Stop.Tells]
        | succ d' =>
          simp only
          rcases nest d' (pc + 1) t with ⟨ret, h1, h2, h3⟩ | ⟨e, b, q, h1, h2, h3, h4⟩ | h1 | ⟨h1, h2⟩
          · rw [h1, h2]; exact ih _ _ _ _ _ _
          · rw [h1, h2]; simp only [Stop.Tells]; exact ⟨trivial, h3, h4⟩
          · rw [h1]; simp [Stop.Tells]
          · rw [h1, h2]; simp [Stop.Tells]

/-- A stack with room for as many activations as there are steps is never exhausted. -/
theorem evalAt_room : ∀ n d pc fr fl (r : R) (t : T) (_ : n ≤ d),
    evalAt ro fo p n d pc fr fl r t ≠ .overflow := by
  intro n
  induction n with
  | zero => intro d pc fr fl r t _; simp [evalAt]
  | succ n ih =>
    intro d pc fr fl r t hd
    unfold evalAt
    repeat' split
    all_goals first
      | (intro h; cases h; done)
      | exact ih _ _ _ _ _ _ (by omega)
      | (exfalso; omega)
      | (rename_i h1; exact absurd h1 (ih _ _ _ _ _ _ (by omega)))
end
end Verif
