import Verif.VM.Recover
import Verif.Compiler.Flags
/-
How many nested activations the compiled program needs.
-/
set_option linter.unusedSimpArgs false
set_option linter.unusedVariables false
namespace Verif
variable {R T : Type}

/-- Data of type `t` nests at most `k` deep, counting arrays, maps, unions and named types. There is
such a `k` exactly if `t` does not lead to a record that contains itself. -/
inductive Nests (env : Env) : Nat → Ty → Prop
  | null {k} : Nests env k .null
  | bool {k} : Nests env k .bool
  | int {k} : Nests env k .int
  | long {k} : Nests env k .long
  | float {k} : Nests env k .float
  | double {k} : Nests env k .double
  | bytes {k} : Nests env k .bytes
  | string {k} : Nests env k .string
  | array {k t} : Nests env k t → Nests env (k + 1) (.array t)
  | map {k t} : Nests env k t → Nests env (k + 1) (.map t)
  | union {k ts} : (∀ t ∈ ts, Nests env k t) → Nests env (k + 1) (.union ts)
  | ref {k q d} : env.find q = some d → (∀ fs, d.kind = .record fs → ∀ f ∈ fs, Nests env k f.ty) →
      Nests env (k + 1) (.ref q)

/-- Stopped, but not for want of stack and not by returning. -/
def Stop.Broken {α : Type} : Stop α → Prop
  | .failed _ _ _ => True
  | .timeout => True
  | _ => False

/-- `M` does not grow by reading, and reading a long takes at least `e` from it. -/
structure Meter (ro : ReaderOps R) (M : R → Nat) (e : Nat) : Prop where
  any : ∀ arg fr r fr' r', doRead ro arg fr r = .ok (fr', r') → M r' ≤ M r
  long : ∀ fr r fr' r', doRead ro opLong fr r = .ok (fr', r') → M r' + e ≤ M r

/-- From `p`, with at most `s` left to read and room for `k` nested activations, the program gets
to `q` in the same activation, or fails, or is not done yet. -/
def Room (ro : ReaderOps R) (fo : FieldOps T) (prog : Program) (M : R → Nat) (s k p q : Nat) : Prop :=
  ∀ n d fr fl (r : R) (t : T), M r ≤ s → k ≤ d →
    (∃ n' fr' fl' r' t', n' ≤ n ∧ M r' ≤ s ∧ evalAt ro fo prog n d p fr fl r t = evalAt ro fo prog n' d q fr' fl' r' t') ∨
    (evalAt ro fo prog n d p fr fl r t).Broken

section
variable {ro : ReaderOps R} {fo : FieldOps T} {prog : Program} {M : R → Nat} {e s : Nat}

theorem Room.skip (k p : Nat) : Room ro fo prog M s k p p :=
  fun n d fr fl r t hs _ => .inl ⟨n, fr, fl, r, t, Nat.le_refl _, hs, rfl⟩

theorem Room.le {k k' p q : Nat} (h : Room ro fo prog M s k p q) (hk : k ≤ k') : Room ro fo prog M s k' p q :=
  fun n d fr fl r t hs hd => h n d fr fl r t hs (by omega)

theorem Room.seq {k p m q : Nat} (h1 : Room ro fo prog M s k p m) (h2 : Room ro fo prog M s k m q) :
    Room ro fo prog M s k p q := by
  intro n d fr fl r t hs hd
  rcases h1 n d fr fl r t hs hd with ⟨n1, fr1, fl1, r1, t1, hn, hs1, e⟩ | h
  · rw [e]
    rcases h2 n1 d fr1 fl1 r1 t1 hs1 hd with ⟨n2, fr2, fl2, r2, t2, hn2, hs2, e2⟩ | h
    · exact .inl ⟨n2, fr2, fl2, r2, t2, by omega, hs2, e2⟩
    · exact .inr h
  · exact .inr h

/-- One step to the next instruction, or failing. -/
theorem Room.step {p q : Nat}
    (h : ∀ n d fr fl (r : R) (t : T), (∃ fr' fl' r' t', M r' ≤ M r ∧
        evalAt ro fo prog (n + 1) d p fr fl r t = evalAt ro fo prog n d q fr' fl' r' t') ∨
      (evalAt ro fo prog (n + 1) d p fr fl r t).Broken) : Room ro fo prog M s 0 p q := by
  intro n d fr fl r t hs _
  cases n with
  | zero => right; simp [evalAt, Stop.Broken]
  | succ n =>
    rcases h n d fr fl r t with ⟨fr', fl', r', t', hr, e⟩ | h
    · exact .inl ⟨n, fr', fl', r', t', by omega, by omega, e⟩
    · exact .inr h

/-- Replace the evaluation `e` of an instruction `h` by what it comes to. -/
local macro "at_step " e:term ", " h:term : tactic =>
  `(tactic| (generalize hx : $e = x; unfold evalAt at hx; rw [$h:term] at hx; simp only at hx; subst hx))

/-- Instructions that keep to their activation and go on with the next. -/
def Op.goesOn : Op → Bool
  | .read | .set | .setDefault | .setExitNull | .evalGreater | .evalEqual | .addLong | .setLong | .setInt | .multLong
  | .hintSize | .nullField => true
  | _ => false

theorem room_on (hM : Meter ro M e) {p op arg} (h : prog.instrs[p]? = some ⟨op, arg⟩) (ho : op.goesOn = true) :
    Room ro fo prog M s 0 p (p + 1) := by
  refine .step fun n d fr fl r t => ?_
  at_step evalAt ro fo prog (n + 1) d p fr fl r t, h
  cases op <;> simp only [Op.goesOn, Bool.false_eq_true] at ho <;> simp only
  case read => cases hx : doRead ro arg fr r with
    | error e => right; simp [Stop.Broken]
    | ok x => exact .inl ⟨_, _, _, _, hM.any _ _ _ _ _ hx, rfl⟩
  case set => cases doSet fo arg fr t with
    | error e => right; simp [Stop.Broken]
    | ok x => exact .inl ⟨_, _, _, _, Nat.le_refl _, rfl⟩
  case setDefault => cases fo.setDefault t arg with
    | error e => right; simp [Stop.Broken]
    | ok x => exact .inl ⟨_, _, _, _, Nat.le_refl _, rfl⟩
  case hintSize => cases fo.hintSize t fr.long with
    | error e => right; simp [Stop.Broken]
    | ok x => exact .inl ⟨_, _, _, _, Nat.le_refl _, rfl⟩
  case nullField => cases fo.nullField t arg with
    | error e => right; simp [Stop.Broken]
    | ok x => exact .inl ⟨_, _, _, _, Nat.le_refl _, rfl⟩
  all_goals exact .inl ⟨_, _, _, _, Nat.le_refl _, rfl⟩

theorem room_jump {p m : Nat} (h : prog.instrs[p]? = some ⟨.jump, (m : Int)⟩) : Room ro fo prog M s 0 p m := by
  refine .step fun n d fr fl r t => ?_
  at_step evalAt ro fo prog (n + 1) d p fr fl r t, h
  rw [if_neg (by omega)]
  exact .inl ⟨_, _, _, _, Nat.le_refl _, rfl⟩

theorem room_halt {p e : Nat} (h : prog.instrs[p]? = some ⟨.halt, ((e + 1 : Nat) : Int)⟩) (k q : Nat) :
    Room ro fo prog M s k p q := by
  intro n d fr fl r t _ _
  right
  cases n with
  | zero => simp [evalAt, Stop.Broken]
  | succ n =>
    at_step evalAt ro fo prog (n + 1) d p fr fl r t, h
    rw [if_neg (by omega), if_neg (by omega)]
    cases prog.errors[((e + 1 : Nat) : Int).toNat - 1]? <;> simp [Stop.Broken]

/-- What a nested activation comes to if its code gets to an instruction that ends it. -/
theorem Room.nested {k p q : Nat} (h : Room ro fo prog M s k p q)
    (he : ∀ n d fr fl (r : R) (t : T), (∃ ret, evalAt ro fo prog (n + 1) d q fr fl r t = .done ret ∧ ret.pc = q ∧ ret.r = r) ∨
      (evalAt ro fo prog (n + 1) d q fr fl r t).Broken) (n d fr fl) (r : R) (t : T) (hs : M r ≤ s) (hd : k ≤ d) :
    (∃ ret, evalAt ro fo prog n d p fr fl r t = .done ret ∧ ret.pc = q ∧ M ret.r ≤ s) ∨
    (evalAt ro fo prog n d p fr fl r t).Broken := by
  rcases h n d fr fl r t hs hd with ⟨n', fr', fl', r', t', hn, hs', e⟩ | h
  · rw [e]
    cases n' with
    | zero => right; simp [evalAt, Stop.Broken]
    | succ n' =>
      rcases he n' d fr' fl' r' t' with ⟨ret, h1, h2, h3⟩ | h
      · exact .inl ⟨ret, h1, h2, by rw [h3]; exact hs'⟩
      · exact .inr h
  · exact .inr h

theorem ends_exit {q arg} (h : prog.instrs[q]? = some ⟨.exit, arg⟩) (n d fr fl) (r : R) (t : T) :
    (∃ ret, evalAt ro fo prog (n + 1) d q fr fl r t = .done ret ∧ ret.pc = q ∧ ret.r = r) ∨
    (evalAt ro fo prog (n + 1) d q fr fl r t).Broken := by
  at_step evalAt ro fo prog (n + 1) d q fr fl r t, h
  cases fo.finalize t with
  | error e => right; simp [Stop.Broken]
  | ok t' => exact .inl ⟨_, rfl, rfl, rfl⟩

theorem ends_ret {q arg} (h : prog.instrs[q]? = some ⟨.ret, arg⟩) (n d fr fl) (r : R) (t : T) :
    (∃ ret, evalAt ro fo prog (n + 1) d q fr fl r t = .done ret ∧ ret.pc = q ∧ ret.r = r) ∨
    (evalAt ro fo prog (n + 1) d q fr fl r t).Broken := by
  at_step evalAt ro fo prog (n + 1) d q fr fl r t, h
  exact .inl ⟨_, rfl, rfl, rfl⟩

theorem ends_popLoop {q arg} (h : prog.instrs[q]? = some ⟨.popLoop, arg⟩) (n d fr fl) (r : R) (t : T) :
    (∃ ret, evalAt ro fo prog (n + 1) d q fr fl r t = .done ret ∧ ret.pc = q ∧ ret.r = r) ∨
    (evalAt ro fo prog (n + 1) d q fr fl r t).Broken := by
  at_step evalAt ro fo prog (n + 1) d q fr fl r t, h
  exact .inl ⟨_, rfl, rfl, rfl⟩

/-- `Enter`, the code inside, `Exit`. -/
theorem room_enter {k p q arg arg'} (h : prog.instrs[p]? = some ⟨.enter, arg⟩) (hr : Room ro fo prog M s k (p + 1) q)
    (he : prog.instrs[q]? = some ⟨.exit, arg'⟩) : Room ro fo prog M s (k + 1) p (q + 1) := by
  intro n d fr fl r t hs hd
  cases n with
  | zero => right; simp [evalAt, Stop.Broken]
  | succ n =>
    at_step evalAt ro fo prog (n + 1) d p fr fl r t, h
    cases fo.get t arg with
    | error e => right; simp [Stop.Broken]
    | ok sub =>
      obtain ⟨d', rfl⟩ : ∃ d', d = d' + 1 := ⟨d - 1, by omega⟩
      simp only
      rcases hr.nested (ends_exit he) n d' {} false r sub hs (by omega) with ⟨ret, e, hp, hs'⟩ | hb
      · rw [e]
        simp only
        cases nullIf fo ret.nil (fo.put t arg ret.t) arg with
        | error e => right; simp [Stop.Broken]
        | ok t' =>
          simp only
          rw [hp]
          exact .inl ⟨n, _, _, _, _, by omega, hs', rfl⟩
      · right
        cases hx : evalAt ro fo prog n d' (p + 1) {} false r sub <;> rw [hx] at hb <;> simp [Stop.Broken] at hb ⊢

theorem room_appendArray {k p q arg arg'} (h : prog.instrs[p]? = some ⟨.appendArray, arg⟩)
    (hr : Room ro fo prog M s k (p + 1) q)
    (he : prog.instrs[q]? = some ⟨.exit, arg'⟩) : Room ro fo prog M s (k + 1) p (q + 1) := by
  intro n d fr fl r t hs hd
  cases n with
  | zero => right; simp [evalAt, Stop.Broken]
  | succ n =>
    at_step evalAt ro fo prog (n + 1) d p fr fl r t, h
    cases fo.appendArray t with
    | error e => right; simp [Stop.Broken]
    | ok sub =>
      obtain ⟨d', rfl⟩ : ∃ d', d = d' + 1 := ⟨d - 1, by omega⟩
      simp only
      rcases hr.nested (ends_exit he) n d' {} false r sub hs (by omega) with ⟨ret, e, hp, hs'⟩ | hb
      · rw [e]
        simp only
        cases nullIf fo ret.nil (fo.putArray t ret.t) (-1) with
        | error e => right; simp [Stop.Broken]
        | ok t' =>
          simp only
          rw [hp]
          exact .inl ⟨n, _, _, _, _, by omega, hs', rfl⟩
      · right
        cases hx : evalAt ro fo prog n d' (p + 1) {} false r sub <;> rw [hx] at hb <;> simp [Stop.Broken] at hb ⊢

theorem room_appendMap {k p q arg arg'} (h : prog.instrs[p]? = some ⟨.appendMap, arg⟩)
    (hr : Room ro fo prog M s k (p + 1) q)
    (he : prog.instrs[q]? = some ⟨.exit, arg'⟩) : Room ro fo prog M s (k + 1) p (q + 1) := by
  intro n d fr fl r t hs hd
  cases n with
  | zero => right; simp [evalAt, Stop.Broken]
  | succ n =>
    at_step evalAt ro fo prog (n + 1) d p fr fl r t, h
    cases fo.appendMap t fr.string with
    | error e => right; simp [Stop.Broken]
    | ok sub =>
      obtain ⟨d', rfl⟩ : ∃ d', d = d' + 1 := ⟨d - 1, by omega⟩
      simp only
      rcases hr.nested (ends_exit he) n d' {} false r sub hs (by omega) with ⟨ret, e, hp, hs'⟩ | hb
      · rw [e]
        simp only
        cases nullIf fo ret.nil (fo.putMap t fr.string ret.t) (-1) with
        | error e => right; simp [Stop.Broken]
        | ok t' =>
          simp only
          rw [hp]
          exact .inl ⟨n, _, _, _, _, by omega, hs', rfl⟩
      · right
        cases hx : evalAt ro fo prog n d' (p + 1) {} false r sub <;> rw [hx] at hb <;> simp [Stop.Broken] at hb ⊢

/-- `Call` of a method that ends with `Return`. -/
theorem room_call {k p q m : Nat} {arg'} (h : prog.instrs[p]? = some ⟨.call, (m : Int)⟩) (hr : Room ro fo prog M s k m q)
    (he : prog.instrs[q]? = some ⟨.ret, arg'⟩) : Room ro fo prog M s (k + 1) p (p + 1) := by
  intro n d fr fl r t hs hd
  cases n with
  | zero => right; simp [evalAt, Stop.Broken]
  | succ n =>
    at_step evalAt ro fo prog (n + 1) d p fr fl r t, h
    obtain ⟨d', rfl⟩ : ∃ d', d = d' + 1 := ⟨d - 1, by omega⟩
    simp only
    rw [if_neg (by omega), Int.toNat_natCast]
    rcases hr.nested (ends_ret he) n d' {} false r t hs (by omega) with ⟨ret, e, hp, hs'⟩ | hb
    · rw [e]
      exact .inl ⟨n, _, _, _, _, by omega, hs', rfl⟩
    · right
      cases hx : evalAt ro fo prog n d' m {} false r t <;> rw [hx] at hb <;> simp [Stop.Broken] at hb ⊢

/-- One round of a loop. -/
theorem room_round {k p q arg arg'} (h : prog.instrs[p]? = some ⟨.pushLoop, arg⟩) (hr : Room ro fo prog M s k (p + 1) q)
    (he : prog.instrs[q]? = some ⟨.popLoop, arg'⟩) (n d fr fl) (r : R) (t : T) (hs : M r ≤ s) (hd : k + 1 ≤ d) :
    (∃ r' t', M r' ≤ s ∧ evalAt ro fo prog (n + 1) d p fr fl r t = evalAt ro fo prog n d (q + 1) fr fl r' t') ∨
    (evalAt ro fo prog (n + 1) d p fr fl r t).Broken := by
  at_step evalAt ro fo prog (n + 1) d p fr fl r t, h
  obtain ⟨d', rfl⟩ : ∃ d', d = d' + 1 := ⟨d - 1, by omega⟩
  simp only
  rcases hr.nested (ends_popLoop he) n d' {} false r t hs (by omega) with ⟨ret, e, hp, hs'⟩ | hb
  · rw [e]
    simp only
    rw [hp]
    exact .inl ⟨_, _, hs', rfl⟩
  · right
    cases hx : evalAt ro fo prog n d' (p + 1) {} false r t <;> rw [hx] at hb <;> simp [Stop.Broken] at hb ⊢

/-- `Room` for runs of at most `N` steps. -/
def RoomUp (ro : ReaderOps R) (fo : FieldOps T) (prog : Program) (M : R → Nat) (s N k p q : Nat) : Prop :=
  ∀ n, n ≤ N → ∀ d fr fl (r : R) (t : T), M r ≤ s → k ≤ d →
    (∃ n' fr' fl' r' t', n' ≤ n ∧ M r' ≤ s ∧ evalAt ro fo prog n d p fr fl r t = evalAt ro fo prog n' d q fr' fl' r' t') ∨
    (evalAt ro fo prog n d p fr fl r t).Broken

theorem Room.up {k p q : Nat} (h : Room ro fo prog M s 0 p q) (N : Nat) : RoomUp ro fo prog M s N k p q :=
  fun n _ d fr fl r t hs _ => h n d fr fl r t hs (by omega)

theorem RoomUp.seq {N k p m q : Nat} (h1 : RoomUp ro fo prog M s N k p m) (h2 : RoomUp ro fo prog M s N k m q) :
    RoomUp ro fo prog M s N k p q := by
  intro n hN d fr fl r t hs hd
  rcases h1 n hN d fr fl r t hs hd with ⟨n1, fr1, fl1, r1, t1, hn, hs1, e⟩ | h
  · rw [e]
    rcases h2 n1 (by omega) d fr1 fl1 r1 t1 hs1 hd with ⟨n2, fr2, fl2, r2, t2, hn2, hs2, e2⟩ | h
    · exact .inl ⟨n2, fr2, fl2, r2, t2, by omega, hs2, e2⟩
    · exact .inr h
  · exact .inr h

theorem RoomUp.condJump {N k p m q : Nat} (h : prog.instrs[p]? = some ⟨.condJump, (m : Int)⟩)
    (h1 : RoomUp ro fo prog M s N k m q) (h2 : RoomUp ro fo prog M s N k (p + 1) q) : RoomUp ro fo prog M s N k p q := by
  intro n hN d fr fl r t hs hd
  cases n with
  | zero => right; simp [evalAt, Stop.Broken]
  | succ n =>
    have e : evalAt ro fo prog (n + 1) d p fr fl r t =
        if fr.cond then evalAt ro fo prog n d m fr fl r t else evalAt ro fo prog n d (p + 1) fr fl r t := by
      at_step evalAt ro fo prog (n + 1) d p fr fl r t, h
      rw [if_neg (show ¬ ((m : Int) < 0) by omega)]
      rfl
    have up : ∀ {x}, (∃ n' fr' fl' r' t', n' ≤ n ∧ M r' ≤ s ∧ x = evalAt ro fo prog n' d q fr' fl' r' t') ∨ x.Broken →
        (∃ n' fr' fl' r' t', n' ≤ n + 1 ∧ M r' ≤ s ∧ x = evalAt ro fo prog n' d q fr' fl' r' t') ∨ x.Broken := by
      rintro x (⟨n', fr', fl', r', t', hn, hs', e⟩ | h)
      · exact .inl ⟨n', fr', fl', r', t', by omega, hs', e⟩
      · exact .inr h
    rw [e]
    by_cases hc : fr.cond = true
    · rw [if_pos hc]; exact up (h1 n (by omega) d fr fl r t hs hd)
    · rw [if_neg hc]; exact up (h2 n (by omega) d fr fl r t hs hd)

/-- A conditional jump to one of two places that lead to `q`. -/
theorem room_condJump {k p m q : Nat} (h : prog.instrs[p]? = some ⟨.condJump, (m : Int)⟩)
    (h1 : Room ro fo prog M s k m q) (h2 : Room ro fo prog M s k (p + 1) q) : Room ro fo prog M s k p q :=
  fun n d fr fl r t hs hd => RoomUp.condJump (N := n) h (fun n _ => h1 n) (fun n _ => h2 n) n (Nat.le_refl _) d fr fl r t hs hd

/-- After a long less is left to read. -/
theorem RoomUp.long (hM : Meter ro M e) {N k p q : Nat} (h : prog.instrs[p]? = some ⟨.read, opLong⟩)
    (h1 : ∀ s', s' + e ≤ s → RoomUp ro fo prog M s' N k (p + 1) q) : RoomUp ro fo prog M s N k p q := by
  intro n hN d fr fl r t hs hd
  cases n with
  | zero => right; simp [evalAt, Stop.Broken]
  | succ n =>
    at_step evalAt ro fo prog (n + 1) d p fr fl r t, h
    cases hx : doRead ro opLong fr r with
    | error e => right; simp [Stop.Broken]
    | ok x =>
      obtain ⟨fr1, r1⟩ := x
      have hl := hM.long _ _ _ _ hx
      simp only
      rcases h1 (s - e) (by omega) n (by omega) d fr1 fl r1 t (by omega) hd with ⟨n', fr', fl', r', t', hn, hs', e'⟩ | hb
      · exact .inl ⟨n', fr', fl', r', t', by omega, by omega, e'⟩
      · exact .inr hb

theorem room_long (hM : Meter ro M e) {k p q : Nat} (h : prog.instrs[p]? = some ⟨.read, opLong⟩)
    (h1 : ∀ s', s' + e ≤ s → Room ro fo prog M s' k (p + 1) q) : Room ro fo prog M s k p q :=
  fun n d fr fl r t hs hd => RoomUp.long hM (N := n) h (fun s' hs' n _ => h1 s' hs' n) n (Nat.le_refl _) d fr fl r t hs hd

/-- An array or a map: the items of all blocks run at the same depth. -/
theorem room_blocks (hM : Meter ro M e) {k p q : Nat} (h : BlockCode prog p q)
    (hr : ∀ s', s' + e ≤ s → Room ro fo prog M s' k (p + 9) q) :
    Room ro fo prog M s (k + 1) p (q + 5) := by
  have key : ∀ N s', s' ≤ s → RoomUp ro fo prog M s' N (k + 1) p (q + 5) ∧
      (s' + e ≤ s → RoomUp ro fo prog M s' N (k + 1) (p + 8) (q + 5)) := by
    intro N
    induction N with
    | zero =>
      intro s' _
      refine ⟨?_, fun _ => ?_⟩ <;>
      · intro n hn d fr fl r t _ _
        obtain rfl : n = 0 := by omega
        right; simp [evalAt, Stop.Broken]
    | succ N ih =>
      intro s' hle
      have h8 : ∀ s', s' + e ≤ s → RoomUp ro fo prog M s' (N + 1) (k + 1) (p + 8) (q + 5) := by
        intro s' hse n hn d fr fl r t hs hd
        cases n with
        | zero => right; simp [evalAt, Stop.Broken]
        | succ n =>
          rcases room_round h.i8 (hr s' hse) h.e0 n d fr fl r t hs hd with ⟨r', t', hs', e⟩ | hb
          · rw [e]
            have hi := ih s' (by omega)
            have : RoomUp ro fo prog M s' N (k + 1) (q + 1) (q + 5) :=
              ((room_on hM h.e1 rfl).up N).seq (((room_on hM h.e2 rfl).up N).seq
                (RoomUp.condJump h.e3 hi.1 (((room_jump h.e4).up N).seq (hi.2 hse))))
            rcases this n (by omega) d fr fl r' t' hs' hd with ⟨n2, fr2, fl2, r2, t2, hn2, hs2, e2⟩ | hb
            · exact .inl ⟨n2, fr2, fl2, r2, t2, by omega, hs2, e2⟩
            · exact .inr hb
          · exact .inr hb
      refine ⟨?_, h8 s'⟩
      refine RoomUp.long hM h.i0 fun s2 hs2 => ?_
      have h7 : RoomUp ro fo prog M s2 (N + 1) (k + 1) (p + 7) (q + 5) :=
        ((room_on hM h.i7 rfl).up _).seq (h8 s2 (by omega))
      exact ((room_on hM h.i1 rfl).up _).seq
        (RoomUp.condJump h.i2 ((Room.skip 0 _).up _) (((room_on hM h.i3 rfl).up _).seq
          (RoomUp.condJump h.i4 h7 (((room_on hM h.i5 rfl).up _).seq (((room_on hM h.i6 rfl).up _).seq h7)))))
  exact fun n d fr fl r t hs hd => (key n s (Nat.le_refl _)).1 n (Nat.le_refl _) d fr fl r t hs hd

/-- The dispatch of a switch. -/
theorem room_dispatch (hM : Meter ro M e) {k q : Nat} : ∀ (cs : List (Nat × Nat)) {p : Nat}, Code prog p (dispatch cs) →
    (∀ x ∈ cs, Room ro fo prog M s k (x.2 + 1) q) → Room ro fo prog M s k (p + 2 * cs.length) q → Room ro fo prog M s k p q := by
  intro cs
  induction cs with
  | nil => intro p _ _ h; exact h
  | cons x cs ih =>
    obtain ⟨v, off⟩ := x
    intro p hc hx hm
    have h0 := hc.get 0 _ rfl
    have h1 := hc.get 1 _ rfl
    have hc' : Code prog (p + 2) (dispatch cs) := Code.right (a := [⟨.evalEqual, v⟩, ⟨.condJump, (off + 1 : Nat)⟩]) hc
    refine ((room_on hM h0 rfl).le (Nat.zero_le _)).seq (room_condJump h1 (hx (v, off) (by simp)) ?_)
    refine ih hc' (fun y hy => hx y (by simp [hy])) ?_
    have e : p + 2 * ((v, off) :: cs).length = p + 2 + 2 * cs.length := by simp; omega
    rw [e] at hm; exact hm
end

/-! ### what the compiler emits -/

/-- A reader and a target of which nothing is asked: what `Ctx` says of the program does not
depend on them. -/
def noOps : FieldOps Unit where
  setBoolean _ _ := .ok ()
  setInt _ _ := .ok ()
  setLong _ _ := .ok ()
  setFloat _ _ := .ok ()
  setDouble _ _ := .ok ()
  setBytes _ _ := .ok ()
  setString _ _ := .ok ()
  get _ _ := .ok ()
  put _ _ _ := ()
  setDefault _ _ := .ok ()
  appendMap _ _ := .ok ()
  putMap _ _ _ := ()
  appendArray _ := .ok ()
  putArray _ _ := ()
  nullField _ _ := .ok ()
  hintSize _ _ := .ok ()
  finalize _ := .ok ()

section
variable {ro : ReaderOps R} {fo : FieldOps T} {ord : Orders} {lax : Bool} {we re : Env}
  {offs : List (MKey × Nat)} {L : Layout} {all : List IR} {fin : CState} {prog : Program} {ro0 : ReaderOps R}
  {M : R → Nat} {P : Nat → Nat → Ty → Prop} {e s : Nat}

/-- `P s k t`: data of type `t` nests at most `k` deep if at most `s` is left to read, of which every
array, map and union takes `e`. -/
structure Levels (env : Env) (P : Nat → Nat → Ty → Prop) (e : Nat) : Prop where
  array : ∀ {s k t}, P s k (.array t) → ∃ k', k = k' + 1 ∧ ∀ s', s' + e ≤ s → P s' k' t
  map : ∀ {s k t}, P s k (.map t) → ∃ k', k = k' + 1 ∧ ∀ s', s' + e ≤ s → P s' k' t
  union : ∀ {s k ts}, P s k (.union ts) → ∃ k', k = k' + 1 ∧ ∀ s', s' + e ≤ s → ∀ t ∈ ts, P s' k' t
  ref : ∀ {s k q d}, P s k (.ref q) → env.find q = some d →
    ∃ k', k = k' + 1 ∧ ∀ fs, d.kind = .record fs → ∀ f ∈ fs, P s k' f.ty

/-- The code for types that nest at most `k` deep needs room for `K`. -/
def RecRoom (ro : ReaderOps R) (fo : FieldOps T) (M : R → Nat) (P : Nat → Nat → Ty → Prop) (all : List IR) (fin : CState)
    (prog : Program) (rec : CState → Ty → Option Ty → CRes) (s k K : Nat) : Prop :=
  ∀ st w r irs st' p, P s k w → (∀ x, r = some x → x.tidy = true) → rec st w r = .ok (irs, st') → Ext st' fin →
    At all p irs → Room ro fo prog M s K p (p + irLen irs)

variable (c : Ctx ro0 noOps ord lax we re offs L all fin prog)
  (hM : Meter ro M e)
include c hM

theorem Ctx.roomLit {p op arg} (h : At all p [Verif.lit op arg]) (ho : op.goesOn = true) (k : Nat) :
    Room ro fo prog M s k p (p + 1) := (room_on hM (c.lit h) ho).le (Nat.zero_le _)

theorem Ctx.roomMember {p i K : Nat} {x : Int} {mid : List IR}
    (h : At all p (unionEnter i ++ mid ++ [Verif.lit .exit x]))
    (ha : Room ro fo prog M s K (p + 3) (p + 3 + irLen mid)) :
    Room ro fo prog M s (K + 1) p (p + 3 + irLen mid + 1) := by
  have h0 : At all p [Verif.lit .setLong i] := h.left.left.head
  have h1 : At all (p + 1) [Verif.lit .set opLong] := (At.tail h.left.left).head
  have h2 : At all (p + 2) [Verif.lit .enter i] := (At.tail (At.tail h.left.left)).head
  have h3 := h.right
  rw [irLen_append, irLen_unionEnter, ← Nat.add_assoc] at h3
  exact (c.roomLit hM h0 rfl _).seq ((c.roomLit hM h1 rfl _).seq (room_enter (c.lit h2) ha (c.lit h3)))

theorem Ctx.roomLeave {k id q : Nat} {mid : List IR} (hm : mid = [] ∨ ∃ w b rest, mid = .switchCase id w b :: rest)
    (h : At all q (mid ++ [.switchEnd id])) : Room ro fo prog M s k q (q + irLen mid) := by
  rcases hm with rfl | ⟨w, b, rest, rfl⟩
  · exact Room.skip _ _
  · have h1 := c.case (At.head (by simpa using h))
    have h2 := c.lk.swEnd h.right
    rw [h2] at h1
    exact (room_jump h1).le (Nat.zero_le _)

theorem Ctx.roomSwitch {id n e p K : Nat} {mid : List IR}
    (h : At all p (.switchStart id n (e + 1) :: (mid ++ [.switchEnd id])))
    (hF : ∀ j, j < n → ∃ pc, At all pc [.switchCase id j false] ∧
      Room ro fo prog M s K (pc + 1) (p + (2 * n + 1) + irLen mid)) :
    Room ro fo prog M s K p (p + (2 * n + 1) + irLen mid) := by
  obtain ⟨code, h1, h2⟩ := c.lk.code h.head
  have hs := c.lk.sizes h.mem
  simp only [IR.toVM, Except.ok.injEq] at h1
  subst h1
  have hp := ord.cases_perm id (L.swCases id)
  refine room_dispatch hM _ h2.left ?_ ?_
  · rintro ⟨v, off⟩ hx
    have hx' := hp.mem_iff.1 hx
    have hv : v < n := (c.lk.keys hs v).1 (List.mem_map.2 ⟨_, hx', rfl⟩)
    obtain ⟨pc, h3, h4⟩ := hF v hv
    have := (c.lk.case h3 off).1 hx'
    subst this
    exact h4
  · have hh := h2.right.get 0 _ rfl
    rw [dispatch_length, Nat.add_zero] at hh
    exact room_halt hh _ _

theorem Ctx.roomUnionMember {rec k K} (hR : RecRoom ro fo M P all fin prog rec s k K)
    {id i t reader st irs st' p} (ht : P s k t) (hr : ∀ x, reader = some x → x.tidy = true)
    (h : compileMember we re rec id i t reader st = .ok (irs, st'))
    (hx : Ext st' fin) (ha : At all p irs) :
    ∃ pc, At all pc [.switchCase id i false] ∧ Room ro fo prog M s (K + 1) (pc + 1) (p + irLen irs) := by
  have null : ∀ {irs}, irs = [IR.switchCase id i false, Verif.lit .setExitNull noopField] → At all p irs →
      ∃ pc, At all pc [.switchCase id i false] ∧ Room ro fo prog M s (K + 1) (pc + 1) (p + irLen irs) := by
    rintro _ rfl ha
    exact ⟨p, ha.head, c.roomLit hM ha.tail rfl _⟩
  have halt : ∀ {irs}, irs = [IR.switchCase id i false, Verif.lit .halt ((st.errors.length + 1 : Nat) : Int)] →
      At all p irs → ∃ pc, At all pc [.switchCase id i false] ∧ Room ro fo prog M s (K + 1) (pc + 1) (p + irLen irs) := by
    rintro _ rfl ha
    exact ⟨p, ha.head, room_halt (c.lit ha.tail) _ _⟩
  unfold compileMember at h
  split at h
  · obtain ⟨mid, hm, rfl⟩ := wrapIR_ok h
    simp only [List.append_nil] at ha ⊢
    refine ⟨p, ha.left, ?_⟩
    have := hR _ _ _ _ _ _ ht (by simp) hm hx ha.right
    rw [irLen_append, ← Nat.add_assoc]
    exact this.le (by omega)
  · have hmem : ∀ {P rs j r}, (∀ x, some (Ty.union rs) = some x → x.tidy = true) → findIdx P 0 rs = some (j, r) →
        ∀ x, some r = some x → x.tidy = true := by
      intro P rs j r h1 h2 x hx
      cases hx
      have := h1 _ rfl
      simp only [Ty.tidy] at this
      exact (tidyMembers_mem this (findIdx_mem h2)).2
    split at h
    · rename_i hf
      split at h
      · simp only [Except.ok.injEq, Prod.mk.injEq] at h
        obtain ⟨rfl, rfl⟩ := h
        exact null rfl ha
      · obtain ⟨mid, hm, rfl⟩ := wrapIR_ok h
        have h1 : At all (p + 1) ([IR.switchCase id i false] ++ (unionEnter _ ++ mid ++ [Verif.lit .exit noopField])) :=
          At.tail (by simpa using ha)
        refine ⟨p + 1, h1.left, ?_⟩
        have h2 := h1.right
        have := c.roomMember hM h2 (hR _ _ _ _ _ _ ht (hmem hr hf) hm hx (by
          have := h2.left.right; rwa [irLen_unionEnter] at this))
        simp only [irLen_append, irLen_unionEnter, irLen, IR.len, Verif.lit] at this ⊢
        rw [show p + (1 + (1 + 0) + 3 + irLen mid + (1 + 0)) = p + 1 + (1 + 0) + 3 + irLen mid + 1 by omega]
        exact this
    · split at h
      · rename_i j _ hf'
        split at h
        · simp only [Except.ok.injEq, Prod.mk.injEq] at h
          obtain ⟨rfl, rfl⟩ := h
          exact null rfl ha
        · obtain ⟨mid, hm, rfl⟩ := wrapIR_ok h
          have h1 : At all p ([IR.switchCase id i false] ++ (unionEnter j ++ mid ++ [Verif.lit .exit noopField])) := by
            simpa using ha
          refine ⟨p, h1.left, ?_⟩
          have h2 := h1.right
          have := c.roomMember hM h2 (hR _ _ _ _ _ _ ht (hmem hr hf') hm hx (by
            have := h2.left.right; rwa [irLen_unionEnter] at this))
          refine Eq.mp ?_ this
          congr 1
          simp only [List.cons_append, irLen_append, irLen_unionEnter, irLen, IR.len, Verif.lit]; omega
      · simp only [Except.ok.injEq, Prod.mk.injEq] at h
        obtain ⟨rfl, rfl⟩ := h
        exact halt rfl ha
  · split at h
    · split at h
      · simp only [Except.ok.injEq, Prod.mk.injEq] at h
        obtain ⟨rfl, rfl⟩ := h
        have := c.narrow_of hx
        simp at this
      · obtain ⟨mid, hm, rfl⟩ := wrapIR_ok h
        simp only [List.append_nil] at ha ⊢
        refine ⟨p, ha.left, ?_⟩
        have := hR _ _ _ _ _ _ ht hr hm hx ha.right
        rw [irLen_append, ← Nat.add_assoc]
        exact this.le (by omega)
    · simp only [Except.ok.injEq, Prod.mk.injEq] at h
      obtain ⟨rfl, rfl⟩ := h
      exact halt rfl ha

theorem Ctx.roomUnionMembers {rec k K} {Q : BodyPred} (hE : RecEmits Q rec) (hR : RecRoom ro fo M P all fin prog rec s k K) {id reader}
    (hr : ∀ x, reader = some x → x.tidy = true) :
    ∀ {ts i st irs st' p}, (∀ t ∈ ts, P s k t) → compileMembers we re rec id reader i ts st = .ok (irs, st') →
    Ext st' fin → At all p (irs ++ [.switchEnd id]) →
    ∀ j, j < ts.length → ∃ pc, At all pc [.switchCase id (i + j) false] ∧
      Room ro fo prog M s (K + 1) (pc + 1) (p + irLen irs) := by
  intro ts
  induction ts with
  | nil => intro i st irs st' p _ h hx ha j hj; simp at hj
  | cons t0 ts ih =>
    intro i st irs st' p ht h hx ha j hj
    unfold compileMembers at h
    obtain ⟨x, s1, y, h1, h2, rfl⟩ := seqIR_ok h
    have he : Emits Q (.cases id (i + 1) (i + 1 + ts.length)) s1 y st' := emits_members hE _ _ _ _ _ h2
    have ha' : At all p (x ++ (y ++ [.switchEnd id])) := by simpa using ha
    cases j with
    | zero =>
      obtain ⟨pc, h3, h4⟩ := c.roomUnionMember hM hR (ht t0 (by simp)) hr h1 (he.ext.trans hx) ha'.left
      refine ⟨pc, h3, ?_⟩
      rw [irLen_append, ← Nat.add_assoc]
      exact h4.seq (c.roomLeave hM (cases_start he (c.narrow_of hx)) ha'.right)
    | succ j =>
      obtain ⟨pc, h3, h4⟩ := ih (fun t h => ht t (by simp [h])) h2 hx ha'.right j (by simpa using hj)
      refine ⟨pc, by rw [show i + (j + 1) = i + 1 + j by omega]; exact h3, ?_⟩
      rw [irLen_append, ← Nat.add_assoc]
      exact h4

theorem Ctx.roomUnion {rec k K} {Q : BodyPred} (hE : RecEmits Q rec)
    {ts reader st irs st' p} (hR : ∀ s', s' + e ≤ s → RecRoom ro fo M P all fin prog rec s' k K ∧ ∀ t ∈ ts, P s' k t) (hr : ∀ x, reader = some x → x.tidy = true)
    (h : compileUnion we re rec ts reader st = .ok (irs, st'))
    (hx : Ext st' fin) (ha : At all p irs) : Room ro fo prog M s (K + 1) p (p + irLen irs) := by
  unfold compileUnion at h
  obtain ⟨mid, hm, rfl⟩ := wrapIR_ok h
  have ha' : At all p (Verif.lit .read opLong ::
      (IR.switchStart st.switches.length ts.length (st.errors.length + 1) :: (mid ++ [.switchEnd st.switches.length]))) := by
    simpa using ha
  have hsw := fun s' (hs' : s' + e ≤ s) => c.roomSwitch (s := s') hM ha'.tail (by
    intro j hj
    obtain ⟨pc, h1, h2⟩ := c.roomUnionMembers hM hE (hR s' hs').1 hr (hR s' hs').2 hm hx (At.tail ha'.tail) j hj
    exact ⟨pc, by simpa using h1, h2⟩)
  have hlen : p + irLen ([Verif.lit .read opLong, IR.switchStart st.switches.length ts.length (st.errors.length + 1)] ++ mid ++
      [IR.switchEnd st.switches.length]) = p + 1 + (2 * ts.length + 1) + irLen mid := by
    simp only [irLen_append, irLen, IR.len, Verif.lit]; omega
  rw [hlen]
  exact room_long hM (c.lit ha'.head) hsw

theorem Ctx.roomSymbols {id rs d K} :
    ∀ {ss i st irs st' p}, compileSymbols id rs d i ss st = .ok (irs, st') →
    Ext st' fin → At all p (irs ++ [.switchEnd id]) →
    ∀ j, j < ss.length → ∃ pc, At all pc [.switchCase id (i + j) false] ∧
      Room ro fo prog M s K (pc + 1) (p + irLen irs) := by
  intro ss
  induction ss with
  | nil => intro i st irs st' p h hx ha j hj; simp at hj
  | cons s0 ss ih =>
    have step : ∀ {i irs1 rest st' p S1}, irs1 = [IR.switchCase id i false] ++ S1 →
        (∃ st1, compileSymbols id rs d (i + 1) ss st1 = .ok (rest, st')) → Ext st' fin →
        At all p ((irs1 ++ rest) ++ [.switchEnd id]) →
        (∀ p, At all p S1 → Room ro fo prog M s K p (p + irLen S1)) →
        ∀ j, j < (s0 :: ss).length → ∃ pc, At all pc [.switchCase id (i + j) false] ∧
          Room ro fo prog M s K (pc + 1) (p + irLen (irs1 ++ rest)) := by
      rintro i irs1 rest st' p S1 rfl ⟨st1, h2⟩ hx ha hS j hj
      have he : Emits (fun _ _ _ _ => True) (.cases id (i + 1) (i + 1 + ss.length)) st1 rest st' := emits_symbols _ _ _ _ _ _ _ _ h2
      have ha' : At all p (([IR.switchCase id i false] ++ S1) ++ (rest ++ [.switchEnd id])) := by simpa using ha
      cases j with
      | zero =>
        refine ⟨p, ha'.left.left, ?_⟩
        have h4 := hS _ ha'.left.right
        rw [irLen_append, irLen_append, ← Nat.add_assoc, ← Nat.add_assoc]
        refine h4.seq ?_
        have := c.roomLeave (fo := fo) (s := s) hM (k := K) (cases_start he (c.narrow_of hx)) ha'.right
        rw [irLen_append, ← Nat.add_assoc] at this
        exact this
      | succ j =>
        obtain ⟨pc, h3, h4⟩ := ih h2 hx ha'.right j (by simpa using hj)
        refine ⟨pc, by rw [show i + (j + 1) = i + 1 + j by omega]; exact h3, ?_⟩
        rw [irLen_append, ← Nat.add_assoc]
        exact h4
    have hset : ∀ (k : Nat) p, At all p [Verif.lit .setInt k, Verif.lit .set opInt] →
        Room ro fo prog M s K p (p + irLen [Verif.lit .setInt k, Verif.lit .set opInt]) := fun k p hp =>
      (c.roomLit hM hp.head rfl _).seq (c.roomLit hM hp.tail rfl _)
    intro i st irs st' p h hx ha
    unfold compileSymbols at h
    split at h
    · rename_i k hk
      obtain ⟨mid, hm, rfl⟩ := wrapIR_ok h
      simp only [List.append_nil] at ha ⊢
      exact step (S1 := [Verif.lit .setInt k, Verif.lit .set opInt]) rfl ⟨_, hm⟩ hx ha (hset k)
    · split at h
      · split at h
        · simp at h
        · rename_i k hk'
          obtain ⟨mid, hm, rfl⟩ := wrapIR_ok h
          simp only [List.append_nil] at ha ⊢
          exact step (S1 := [Verif.lit .setInt k, Verif.lit .set opInt]) rfl ⟨_, hm⟩ hx ha (hset k)
      · obtain ⟨mid, hm, rfl⟩ := wrapIR_ok h
        simp only [List.append_nil] at ha ⊢
        refine step (S1 := [Verif.lit .halt ((st.errors.length + 1 : Nat) : Int)]) rfl ⟨_, hm⟩ hx ha ?_
        intro p hp
        exact room_halt (c.lit hp) _ _

theorem Ctx.roomEnum {ss reader st irs st' p K} (h : compileEnum ss reader st = .ok (irs, st'))
    (hx : Ext st' fin) (ha : At all p irs) : Room ro fo prog M s K p (p + irLen irs) := by
  unfold compileEnum at h
  cases reader with
  | none =>
    simp only [Except.ok.injEq, Prod.mk.injEq] at h
    obtain ⟨rfl, rfl⟩ := h
    exact c.roomLit hM ha rfl _
  | some x =>
    obtain ⟨rs, d⟩ := x
    simp only at h
    obtain ⟨mid, hm, rfl⟩ := wrapIR_ok h
    have ha' : At all p (Verif.lit .read opLong ::
        (IR.switchStart st.switches.length ss.length (st.errors.length + 1) :: (mid ++ [.switchEnd st.switches.length]))) := by
      simpa using ha
    have hsw := c.roomSwitch (fo := fo) (s := s) hM (K := K) ha'.tail (by
      intro j hj
      obtain ⟨pc, h1, h2⟩ := c.roomSymbols hM hm hx (At.tail ha'.tail) j hj
      exact ⟨pc, by simpa using h1, h2⟩)
    have hlen : p + irLen ([Verif.lit .read opLong, IR.switchStart st.switches.length ss.length (st.errors.length + 1)] ++ mid ++
        [IR.switchEnd st.switches.length]) = p + 1 + (2 * ss.length + 1) + irLen mid := by
      simp only [irLen_append, irLen, IR.len, Verif.lit]; omega
    rw [hlen]
    exact (c.roomLit hM ha'.head rfl _).seq hsw

theorem Ctx.roomFixed {size : Int} {b p K} (ha : At all p (compileFixed size b)) :
    Room ro fo prog M s K p (p + irLen (compileFixed size b)) := by
  cases b with
  | false =>
    simp only [compileFixed, Bool.false_eq_true, if_false] at ha ⊢
    exact c.roomLit hM ha rfl _
  | true =>
    simp only [compileFixed, if_true] at ha ⊢
    exact (c.roomLit hM ha.head rfl _).seq (c.roomLit hM ha.tail rfl _)

theorem Ctx.roomPrim {arg : Int} {r : Option Ty} {p K : Nat} (ha : At all p (compilePrim arg r)) :
    Room ro fo prog M s K p (p + irLen (compilePrim arg r)) := by
  cases r with
  | none => exact c.roomLit hM (At.head ha) rfl _
  | some ty => exact (c.roomLit hM (At.head ha) rfl _).seq (c.roomLit hM (At.tail ha) rfl _)

theorem Ctx.roomDefaults {K : Nat} : ∀ {l st irs st' p}, compileDefaults l st = .ok (irs, st') → At all p irs →
    Room ro fo prog M s K p (p + irLen irs) := by
  intro l
  induction l with
  | nil =>
    intro st irs st' p h ha
    simp only [compileDefaults, Except.ok.injEq, Prod.mk.injEq] at h
    obtain ⟨rfl, rfl⟩ := h
    exact Room.skip _ p
  | cons x l ih =>
    obtain ⟨i, f⟩ := x
    intro st irs st' p h ha
    unfold compileDefaults at h
    split at h
    · simp at h
    · obtain ⟨mid, hm, rfl⟩ := wrapIR_ok h
      simp only [List.append_nil] at ha ⊢
      have := ih hm ha.right
      rw [irLen_append, ← Nat.add_assoc]
      exact (c.roomLit hM ha.left rfl _).seq this

theorem Ctx.roomFields {rec k K reader} {Q : BodyPred} (hE : RecEmits Q rec) (hR : RecRoom ro fo M P all fin prog rec s k K)
    (hr : ∀ rfs, reader = some rfs → ∀ f ∈ rfs, f.ty.tidy = true) :
    ∀ {wfs st irs st' p}, (∀ f ∈ wfs, P s k f.ty) → compileFields we re rec reader wfs st = .ok (irs, st') → Ext st' fin →
    At all p irs → Room ro fo prog M s (K + 1) p (p + irLen irs) := by
  intro wfs
  induction wfs with
  | nil =>
    intro st irs st' p _ h hx ha
    simp only [compileFields, Except.ok.injEq, Prod.mk.injEq] at h
    obtain ⟨rfl, rfl⟩ := h
    exact Room.skip _ p
  | cons w wfs ih =>
    intro st irs st' p hn h hx ha
    have hn' : ∀ f ∈ wfs, P s k f.ty := fun f hf => hn f (by simp [hf])
    unfold compileFields at h
    split at h
    · obtain ⟨x, s1, y, h1, h2, rfl⟩ := seqIR_ok h
      have he : Emits Q .code s1 y st' := emits_fields hE _ _ _ _ h2
      rw [irLen_append, ← Nat.add_assoc]
      exact ((hR _ _ _ _ _ _ (hn w (by simp)) (by simp) h1 (he.ext.trans hx) ha.left).le (by omega)).seq (ih hn' h2 hx ha.right)
    · rename_i i rf hf
      split at h
      · obtain ⟨x, s1, y, h1, h2, rfl⟩ := seqIR_ok h
        obtain ⟨mid, hm, rfl⟩ := wrapIR_ok h1
        have he : Emits Q .code s1 y st' := emits_fields hE _ _ _ _ h2
        have ha1 := ha.left
        have htidy : ∀ x, some rf.ty = some x → x.tidy = true := by
          intro x hx
          cases hx
          cases hrd : reader with
          | none => rw [hrd] at hf; simp at hf
          | some rfs =>
            rw [hrd] at hf
            exact hr rfs hrd _ (fieldByName_mem hf)
        have h3 := hR _ _ _ _ _ _ (hn w (by simp)) htidy hm (he.ext.trans hx) ha1.left.right
        have h4 := ih hn' h2 hx ha.right
        have h5 := room_enter (c.lit ha1.left.left) h3 (by
          have := c.lit ha1.right
          rw [irLen_append, ← Nat.add_assoc] at this
          exact this)
        simp only [irLen_append, irLen, IR.len, Verif.lit] at h4 h5 ⊢
        refine h5.seq ?_
        rw [show p + (1 + 0) + irLen mid + 1 = p + (1 + 0 + irLen mid + (1 + 0)) by omega,
          show p + (1 + 0 + irLen mid + (1 + 0) + irLen y) = p + (1 + 0 + irLen mid + (1 + 0)) + irLen y by omega]
        exact h4
      · simp at h

theorem Ctx.roomMethod {k K} (hR : ∀ m, RecRoom ro fo M P all fin prog (compileType ord lax we re m) s k K)
    (htr : TidyFields re) {key pair wfs reader p} (hmem : (key, pair) ∈ fin.started) (hp : PairOf we re pair wfs reader)
    (hn : ∀ f ∈ wfs, P s k f.ty) (ha : At all p [.call key]) :
    Room ro fo prog M s (K + 2) p (p + 1) := by
  obtain ⟨body, off, st2, ⟨m, wfs', reader', k', st1, hp', hc⟩, hx, hat, ho⟩ := c.methods key pair hmem
  have hw : wfs' = wfs := by
    obtain ⟨⟨q, wd, h1, h2, h3⟩, -⟩ := hp
    obtain ⟨⟨q', wd', h1', h2', h3'⟩, -⟩ := hp'
    have := c.wOK _ _ _ _ h1 h1' (h2.trans h2'.symm)
    subst this
    rw [h3] at h3'
    simpa using h3'.symm
  subst hw
  have htidy : ∀ rfs, reader' = some rfs → ∀ f ∈ rfs, f.ty.tidy = true := by
    intro rfs hrf f hf
    obtain ⟨-, hp'⟩ := hp'
    rcases hp' with ⟨h1', h2'⟩ | ⟨q', rd', rfs', h1', h2', h3', h4'⟩
    · rw [h2'] at hrf; cases hrf
    · rw [h4'] at hrf; cases hrf
      exact htr _ _ _ _ h1' h3' hf
  unfold compileRecord at hc
  obtain ⟨x, s1, y, h1, h2, rfl⟩ := seqIR_ok hc
  have he : Emits (fun _ _ _ _ => True) .code s1 y st2 := emits_defaults _ _ _ _ h2
  have h3 := c.roomFields hM (emits_type ord lax we re m) (hR m) htidy hn h1 (he.ext.trans hx) hat.left.left
  have h4 := c.roomDefaults (fo := fo) (s := s) hM (K := K + 1) h2 hat.left.right
  have h5 := h3.seq h4
  rw [Nat.add_assoc, ← irLen_append] at h5
  exact room_call (c.call ha ho) h5 (c.lit hat.right)

theorem Ctx.roomCall {m k K} (hR : ∀ m, RecRoom ro fo M P all fin prog (compileType ord lax we re m) s k K) (htr : TidyFields re)
    {key pair wfs reader st irs st' p} (hp : PairOf we re pair wfs reader) (hn : ∀ f ∈ wfs, P s k f.ty)
    (h : compileCall ord we re (compileType ord lax we re m) key pair wfs reader st = .ok (irs, st'))
    (hx : Ext st' fin) (ha : At all p irs) : Room ro fo prog M s (K + 2) p (p + irLen irs) := by
  unfold compileCall at h
  split at h
  · rename_i pair' hf
    simp only [Except.ok.injEq, Prod.mk.injEq] at h
    obtain ⟨rfl, rfl⟩ := h
    have h1 := c.coll_of hx
    simp only [Bool.or_eq_false_iff, decide_eq_false_iff_not, Decidable.not_not, ne_eq] at h1
    have h2 := h1.2
    subst h2
    exact c.roomMethod hM hR htr (hx.started.subset (findMethod_some hf)) hp hn ha
  · split at h
    · simp at h
    · rename_i body st2 hb
      simp only [Except.ok.injEq, Prod.mk.injEq] at h
      obtain ⟨rfl, rfl⟩ := h
      have he := (emits_record (emits_type ord lax we re m) hb).ext
      exact c.roomMethod hM hR htr (hx.started.subset (he.started.subset (by simp))) hp hn ha

theorem Ctx.roomDef {m k K} (hR : ∀ m, RecRoom ro fo M P all fin prog (compileType ord lax we re m) s k K) (htr : TidyFields re)
    {q wd rd st irs st' p} (hw : we.find q = some wd) (hr : ∀ d, rd = some d → ∃ q', re.find q' = some d)
    (hn : ∀ fs, wd.kind = .record fs → ∀ f ∈ fs, P s k f.ty)
    (h : compileDef ord we re (compileType ord lax we re m) wd rd st = .ok (irs, st'))
    (hx : Ext st' fin) (ha : At all p irs) : Room ro fo prog M s (K + 2) p (p + irLen irs) := by
  unfold compileDef at h
  split at h
  · rename_i wfs hk hk'
    exact c.roomCall hM hR htr ⟨⟨q, wd, hw, rfl, hk⟩, .inl ⟨rfl, rfl⟩⟩ (hn _ hk) h hx ha
  · rename_i wfs rfs hk hk'
    refine c.roomCall hM hR htr ?_ (hn _ hk) h hx ha
    cases rd with
    | none => simp at hk'
    | some d =>
      obtain ⟨q', hq'⟩ := hr d rfl
      simp only [Option.map_some, Option.some.injEq] at hk'
      exact ⟨⟨q, wd, hw, rfl, hk⟩, .inr ⟨q', d, rfs, hq', rfl, hk', rfl⟩⟩
  · simp only [Except.ok.injEq, Prod.mk.injEq] at h
    obtain ⟨rfl, rfl⟩ := h
    exact c.roomFixed hM ha
  · simp only [Except.ok.injEq, Prod.mk.injEq] at h
    obtain ⟨rfl, rfl⟩ := h
    exact c.roomFixed hM ha
  · exact c.roomEnum hM h hx ha
  · exact c.roomEnum hM h hx ha
  · simp at h

theorem Ctx.roomRef (hP : Levels we P e) {m k K} (hR : ∀ m, RecRoom ro fo M P all fin prog (compileType ord lax we re m) s k K) (htr : TidyFields re)
    {q q' st irs st' p} (hn : P s (k + 1) (.ref q))
    (h : compileRef ord lax we re (compileType ord lax we re m) q q' st = .ok (irs, st'))
    (hx : Ext st' fin) (ha : At all p irs) : Room ro fo prog M s (K + 2) p (p + irLen irs) := by
  unfold compileRef at h
  split at h
  · simp at h
  · rename_i wd hw
    have hn' : ∀ fs, wd.kind = .record fs → ∀ f ∈ fs, P s k f.ty := by
      obtain ⟨k', hk, h⟩ := hP.ref hn hw
      cases hk
      exact h
    split at h
    · exact c.roomDef hM hR htr hw (by simp) hn' h hx ha
    · split at h
      · simp at h
      · rename_i hr
        split at h
        · exact c.roomDef hM hR htr hw (fun d hd => by cases hd; exact ⟨_, hr⟩) hn' h hx ha
        · simp at h

/-- A type and a reader that is not a union, or is left to `compileUnion`. -/
theorem Ctx.roomBody (hP : Levels we P e) (htr : TidyFields re) {k K m}
    (hR : ∀ k', k = k' + 1 → ∃ K', K' + 2 ≤ K ∧
      ∀ s m, RecRoom ro fo M P all fin prog (compileType ord lax we re m) s k' K')
    {w r st irs st' p} (hn : P s k w) (hr : ∀ x, r = some x → x.tidy = true)
    (h : compileBody ord lax we re (compileType ord lax we re m) w r st = .ok (irs, st'))
    (hx : Ext st' fin) (ha : At all p irs) : Room ro fo prog M s K p (p + irLen irs) := by
  have hE := emits_type ord lax we re m
  unfold compileBody at h
  cases w <;> simp only at h
  case null =>
    simp only [Except.ok.injEq, Prod.mk.injEq] at h; obtain ⟨rfl, rfl⟩ := h; exact Room.skip _ p
  case union ts =>
    obtain ⟨k', rfl, hn'⟩ := hP.union hn
    obtain ⟨K', hK, hR⟩ := hR _ rfl
    exact (c.roomUnion hM hE (fun s' hs' => ⟨hR s' m, hn' s' hs'⟩) hr h hx ha).le (by omega)
  case array wi =>
    obtain ⟨k', rfl, hn'⟩ := hP.array hn
    obtain ⟨K', hK, hR⟩ := hR _ rfl
    split at h
    · obtain ⟨mid, hm, rfl⟩ := wrapIR_ok h
      have ha' : At all p (.blockStart st.blocks :: (mid ++ [.blockEnd st.blocks])) := by simpa using ha
      have h1 := room_blocks hM (c.block ha') (fun s' hs' => hR s' m _ _ _ _ _ _ (hn' s' hs') (by simp) hm hx (At.tail ha').left)
      simp only [irLen_append, irLen, IR.len] at h1 ⊢
      have h2 := h1.le (k' := K) (by omega)
      simpa [Nat.add_assoc, irLen] using h2
    · rename_i ri
      obtain ⟨mid, hm, rfl⟩ := wrapIR_ok h
      have ha' : At all p (.blockStart st.blocks :: ((Verif.lit .appendArray opUnused :: (mid ++ [Verif.lit .exit opUnused]))
        ++ [.blockEnd st.blocks])) := by simpa using ha
      have h2 := (At.tail ha').left
      have htidy : ∀ x, some ri = some x → x.tidy = true := by
        intro x hx; cases hx
        have := hr _ rfl
        simpa only [Ty.tidy] using this
      have h4 := fun s' (hs' : s' + e ≤ s) => room_appendArray (c.lit h2.head)
        (hR s' m _ _ _ _ _ _ (hn' s' hs') htidy hm hx h2.tail.left) (c.lit h2.tail.right)
      have h1 := (room_blocks hM (q := p + 9 + 1 + irLen mid + 1) (by
        have := c.block ha'
        simp only [irLen, irLen_append, IR.len, Verif.lit] at this
        rw [show p + 9 + 1 + irLen mid + 1 = p + 9 + (1 + (irLen mid + (1 + 0))) by omega]
        exact this) h4).le (k' := K) (by omega)
      refine Eq.mp ?_ h1
      congr 1
      simp [irLen_append, irLen, IR.len, Verif.lit]; omega
    · simp at h
  case map wi =>
    obtain ⟨k', rfl, hn'⟩ := hP.map hn
    obtain ⟨K', hK, hR⟩ := hR _ rfl
    split at h
    · obtain ⟨mid, hm, rfl⟩ := wrapIR_ok h
      have ha' : At all p (.blockStart st.blocks :: ((Verif.lit .read opString :: mid) ++ [.blockEnd st.blocks])) := by simpa using ha
      have h2 := (At.tail ha').left
      have h1 := (room_blocks hM (c.block ha') (fun s' hs' => by
        have := (c.roomLit hM h2.head rfl _).seq (hR s' m _ _ _ _ _ _ (hn' s' hs') (by simp) hm hx h2.tail)
        simp only [irLen, IR.len, Verif.lit]
        rw [← Nat.add_assoc]
        exact this)).le (k' := K) (by omega)
      refine Eq.mp ?_ h1
      congr 1
      simp [irLen_append, irLen, IR.len, Verif.lit]; omega
    · rename_i ri
      obtain ⟨mid, hm, rfl⟩ := wrapIR_ok h
      have ha' : At all p (.blockStart st.blocks :: ((Verif.lit .read opString :: (Verif.lit .appendMap opUnused :: (mid ++ [Verif.lit .exit opUnused])))
        ++ [.blockEnd st.blocks])) := by simpa using ha
      have h2 := (At.tail ha').left
      have htidy : ∀ x, some ri = some x → x.tidy = true := by
        intro x hx; cases hx
        have := hr _ rfl
        simpa only [Ty.tidy] using this
      have h4 := fun s' (hs' : s' + e ≤ s) => (c.roomLit hM h2.head rfl _).seq (room_appendMap (c.lit h2.tail.head)
        (hR s' m _ _ _ _ _ _ (hn' s' hs') htidy hm hx h2.tail.tail.left) (c.lit h2.tail.tail.right))
      have h1 := (room_blocks hM (q := p + 9 + 1 + 1 + irLen mid + 1) (by
        have := c.block ha'
        simp only [irLen, irLen_append, IR.len, Verif.lit] at this
        rw [show p + 9 + 1 + 1 + irLen mid + 1 = p + 9 + (1 + (1 + (irLen mid + (1 + 0)))) by omega]
        exact this) h4).le (k' := K) (by omega)
      refine Eq.mp ?_ h1
      congr 1
      simp [irLen_append, irLen, IR.len, Verif.lit]; omega
    · simp at h
  case ref q =>
    have hk : k ≠ 0 := by
      rintro rfl
      have : ∀ {q'}, compileRef ord lax we re (compileType ord lax we re m) q q' st = .ok (irs, st') → False := by
        intro q' h
        unfold compileRef at h
        split at h
        · simp at h
        · rename_i hw
          obtain ⟨k', hk, _⟩ := hP.ref hn hw
          omega
      split at h
      · exact this h
      · exact this h
      · simp at h
    obtain ⟨k', rfl⟩ : ∃ k', k = k' + 1 := ⟨k - 1, by omega⟩
    obtain ⟨K', hK, hR⟩ := hR _ rfl
    split at h
    · exact (c.roomRef hM hP (hR s) htr hn h hx ha).le hK
    · exact (c.roomRef hM hP (hR s) htr hn h hx ha).le hK
    · simp at h
  all_goals
    simp only [Except.ok.injEq, Prod.mk.injEq] at h; obtain ⟨rfl, rfl⟩ := h
    exact c.roomPrim hM ha

/-- Three activations for every level. -/
theorem Ctx.roomType (hP : Levels we P e) (htr : TidyFields re) :
    ∀ k s m, RecRoom ro fo M P all fin prog (compileType ord lax we re m) s k (3 * k + 1) := by
  intro k
  induction k using Nat.strongRecOn with
  | ind k ih =>
    have hR : ∀ k', k = k' + 1 → ∃ K', K' + 2 ≤ 3 * k ∧
        ∀ s m, RecRoom ro fo M P all fin prog (compileType ord lax we re m) s k' K' := by
      intro k' hk
      exact ⟨3 * k' + 1, by omega, ih k' (by omega)⟩
    intro s
    -- a reader that is not a union needs one less
    have flat : ∀ m st w r irs st' p, P s k w → (∀ x, r = some x → x.tidy = true) →
        (∀ x, r = some x → w.isUnion = false → x.isUnion = false) →
        compileType ord lax we re m st w r = .ok (irs, st') → Ext st' fin → At all p irs →
        Room ro fo prog M s (3 * k) p (p + irLen irs) := by
      intro m st w r irs st' p hn hr hu h hx ha
      cases m with
      | zero => simp [compileType] at h
      | succ m =>
        unfold compileType at h
        split at h
        · rename_i hw
          have := hu _ rfl hw
          simp [Ty.isUnion] at this
        · exact c.roomBody hM hP htr hR hn hr h hx ha
    intro m st w r irs st' p hn hr h hx ha
    cases m with
    | zero => simp [compileType] at h
    | succ m =>
      unfold compileType at h
      split at h
      · rename_i rs hw
        split at h
        · rename_i i r' hf
          obtain ⟨mid, hm, rfl⟩ := wrapIR_ok h
          have ht := hr _ rfl
          simp only [Ty.tidy] at ht
          have ht' := tidyMembers_mem ht (findIdx_mem hf)
          have := c.roomMember hM ha (flat m _ _ _ _ _ _ hn (fun x hx => by cases hx; exact ht'.2)
            (fun x hx _ => by cases hx; exact ht'.1) hm hx (by
            have := ha.left.right; rwa [irLen_unionEnter] at this))
          refine Eq.mp ?_ this
          congr 1
          simp [irLen_append, irLen, IR.len, Verif.lit, irLen_unionEnter]; omega
        · simp at h
      · exact (c.roomBody hM hP htr hR hn hr h hx ha).le (by omega)
end

/-- The whole program. -/
theorem compiled_room (ro : ReaderOps R) (fo : FieldOps T) {M : R → Nat} {e : Nat} (hM : Meter ro M e)
    {ord : Orders} {lax : Bool} {w r : Schema} {m main st prog k s} {P : Nat → Nat → Ty → Prop} (hP : Levels w.env P e)
    (hw : NamesOK w.env) (hr : NamesOK r.env) (hs : SizesOK w.env) (htr : TidyFields r.env) (ht : r.root.tidy = true)
    (h : compileType ord lax w.env r.env m {} w.root (some r.root) = .ok (main, st))
    (hc : st.collision = false) (hn : st.nullNarrow = false) (hk : P s k w.root)
    (hl : linkProgram ord main st = .ok prog) (n d : Nat) (hd : 3 * k + 1 ≤ d) (rd : R) (t : T) (hrd : M rd ≤ s) :
    evalAt ro fo prog n d 0 {} false rd t ≠ .overflow := by
  have c := ctx_of_compile ro noOps hw hr hs (fun _ _ _ => rfl) h hc hn hl
  have hat : At (allIR ord main st) 0 (main ++ [lit .halt 0]) := ⟨[], _, rfl, rfl⟩
  have hroom := c.roomType (fo := fo) hM hP htr k s m _ _ _ _ _ _ hk (fun x hx => by cases hx; exact ht) h (Ext.refl _) hat.left
  have hh := c.lit hat.right
  rcases hroom n d {} false rd t hrd hd with ⟨n', fr', fl', r', t', _, _, e⟩ | hb
  · rw [e]
    cases n' with
    | zero => simp [evalAt]
    | succ n' =>
      unfold evalAt
      rw [hh]
      simp
  · intro ho
    rw [ho] at hb
    exact hb

/-! ### two ways to count the levels -/

theorem nests_levels (env : Env) : Levels env (fun _ k t => Nests env k t) 0 where
  array h := by cases h with | array h => exact ⟨_, rfl, fun _ _ => h⟩
  map h := by cases h with | map h => exact ⟨_, rfl, fun _ _ => h⟩
  union h := by cases h with | union h => exact ⟨_, rfl, fun _ _ => h⟩
  ref h hd := by
    cases h with
    | ref h1 h2 =>
      rw [hd] at h1
      cases h1
      exact ⟨_, rfl, h2⟩

theorem no_meter (ro : ReaderOps R) : Meter ro (fun _ => 0) 0 := ⟨fun _ _ _ _ _ _ => Nat.le_refl _, fun _ _ _ _ _ => Nat.le_refl _⟩

/-- The level of a type among types that are read at the same place of the input. -/
def Ty.rankBy (rank : QName → Nat) : Ty → Nat
  | .array _ | .map _ | .union _ => 1
  | .ref q => rank q + 2
  | _ => 0

theorem Ty.rankBy_le {rank : QName → Nat} {K : Nat} (hK : ∀ q, rank q ≤ K) (t : Ty) : t.rankBy rank ≤ K + 2 := by
  cases t with
  | ref q => have := hK q; simp only [Ty.rankBy]; omega
  | _ => simp [Ty.rankBy]

theorem rank_levels {env : Env} {rank : QName → Nat} {K : Nat} (hK : ∀ q, rank q ≤ K)
    (hr : ∀ q d fs, env.find q = some d → d.kind = .record fs → ∀ f ∈ fs, ∀ q', f.ty = .ref q' → rank q' < rank q) :
    Levels env (fun s k t => (K + 3) * s + t.rankBy rank ≤ k) 1 := by
  have item : ∀ {s k s' : Nat} (t : Ty), (K + 3) * s + 1 ≤ k → s' + 1 ≤ s → (K + 3) * s' + t.rankBy rank ≤ k - 1 := by
    intro s k s' t h hs
    have h1 := Ty.rankBy_le hK t
    have h2 : (K + 3) * (s' + 1) ≤ (K + 3) * s := Nat.mul_le_mul_left _ hs
    have h3 : (K + 3) * (s' + 1) = (K + 3) * s' + (K + 3) := Nat.mul_succ _ _
    omega
  refine ⟨?_, ?_, ?_, ?_⟩
  · intro s k t h
    exact ⟨k - 1, by simp only [Ty.rankBy] at h; omega, fun s' hs => item t h hs⟩
  · intro s k t h
    exact ⟨k - 1, by simp only [Ty.rankBy] at h; omega, fun s' hs => item t h hs⟩
  · intro s k ts h
    exact ⟨k - 1, by simp only [Ty.rankBy] at h; omega, fun s' hs t _ => item t h hs⟩
  · intro s k q d h hd
    simp only [Ty.rankBy] at h
    refine ⟨k - 1, by omega, fun fs hk f hf => ?_⟩
    cases ht : f.ty with
    | ref q' =>
      have := hr q d fs hd hk f hf q' ht
      simp only [Ty.rankBy]; omega
    | _ => simp only [Ty.rankBy]; omega

end Verif
