import Verif.Props.Lax
import Verif.Props.Wire
import Verif.Compiler.Guarded
import Verif.Compiler.StackLen
/-
C78: decoding returns, with a value or an error, whatever the bytes.
-/
namespace Verif.Props
variable {R T : Type}

/-- C78: for every two schemas, with and without the option for names, every reader, every
target and every input: a call of `Eval` with the compiled program does not panic. Panics of the
target and of the runtime become errors; the handler that does so does not panic itself. -/
theorem eval_never_panics {ord : Orders} {lax : Bool} {w r : Schema} {prog : Program}
    (h : compile ord lax w r = .ok prog) (ro : ReaderOps R) (fo : FieldOps T) (fuel d : Nat) (rd : R) (t : T) :
    evalGo ro fo prog fuel d rd t ≠ .panics := by
  have := evalAt_tells ro fo prog (compile_guarded h) fuel d 0 {} false rd t
  unfold evalGo
  cases hs : evalAt ro fo prog fuel d 0 {} false rd t with
  | failed e b pc =>
    rw [hs] at this
    simp only [Stop.Tells] at this
    cases b
    · simp
    · simp only; rw [if_pos this.2]; simp
  | _ => simp

/-- C78: with a stack that is large enough the caller sees what the evaluation comes to: the
value, or an error where it fails. So whenever the evaluation ends, the call returns. -/
theorem eval_reported_partial {ord : Orders} {lax : Bool} {w r : Schema} {prog : Program}
    (h : compile ord lax w r = .ok prog) {ro : ReaderOps R} {fo : FieldOps T} {rd : R} {t : T} {out}
    (he : Evaluates ro fo prog rd t out) :
    ∃ fuel, ∀ d, fuel ≤ d → evalGo ro fo prog fuel d rd t =
      (match out with | .ok (rd', t') => .returns rd' t' | .error _ => .error) := by
  obtain ⟨fuel, he⟩ := he
  refine ⟨fuel, fun d hd => ?_⟩
  have h1 := evalAt_tells ro fo prog (compile_guarded h) fuel d 0 {} false rd t
  have h2 := evalAt_room ro fo prog fuel d 0 {} false rd t hd
  unfold evalProg at he
  unfold evalGo
  cases hs : evalAt ro fo prog fuel d 0 {} false rd t with
  | done ret =>
    rw [hs] at h1
    simp only [Stop.Tells] at h1
    rw [h1.1] at he
    cases out with
    | ok x => simp only [Out.done.injEq] at he; subst he; rfl
    | error e => simp at he
  | failed e b pc =>
    rw [hs] at h1
    simp only [Stop.Tells] at h1
    rw [h1.1] at he
    cases out with
    | ok x => simp at he
    | error e =>
      cases b
      · rfl
      · simp only; rw [if_pos h1.2]
  | overflow => exact absurd hs h2
  | timeout =>
    rw [hs] at h1
    simp only [Stop.Tells] at h1
    rw [h1] at he
    cases out <;> simp at he

/-- The call is not killed if the stack is not exhausted. -/
theorem not_killed {ro : ReaderOps R} {fo : FieldOps T} {prog : Program} {fuel d : Nat} {rd : R} {t : T}
    (h : evalAt ro fo prog fuel d 0 {} false rd t ≠ .overflow) : evalGo ro fo prog fuel d rd t ≠ .killed := by
  unfold evalGo
  cases hx : evalAt ro fo prog fuel d 0 {} false rd t with
  | overflow => exact absurd hx h
  | failed e b pc =>
    cases b
    · simp
    · simp only; split <;> simp
  | _ => simp

/-- A call that is not killed comes to what the evaluation comes to. -/
theorem reported {ord : Orders} {lax : Bool} {w r : Schema} {prog : Program} (h : compile ord lax w r = .ok prog)
    {ro : ReaderOps R} {fo : FieldOps T} {rd : R} {t : T} {d : Nat} (hk : ∀ fuel, evalGo ro fo prog fuel d rd t ≠ .killed)
    {out} (he : Evaluates ro fo prog rd t out) : ∃ fuel, evalGo ro fo prog fuel d rd t =
      (match out with | .ok (rd', t') => .returns rd' t' | .error _ => .error) := by
  obtain ⟨fuel, he⟩ := he
  refine ⟨fuel, ?_⟩
  have h1 := evalAt_tells ro fo prog (compile_guarded h) fuel d 0 {} false rd t
  have h2 := hk fuel
  unfold evalProg at he
  unfold evalGo at h2 ⊢
  cases hx : evalAt ro fo prog fuel d 0 {} false rd t with
  | done ret =>
    rw [hx] at h1
    simp only [Stop.Tells] at h1
    rw [h1.1] at he
    cases out with
    | ok x => simp only [Out.done.injEq] at he; subst he; rfl
    | error e => simp at he
  | failed e b pc =>
    rw [hx] at h1
    simp only [Stop.Tells] at h1
    rw [h1.1] at he
    cases out with
    | ok x => simp at he
    | error e =>
      cases b
      · rfl
      · simp only; rw [if_pos h1.2]
  | overflow => rw [hx] at h2; exact absurd rfl h2
  | timeout =>
    rw [hx] at h1
    simp only [Stop.Tells] at h1
    rw [h1] at he
    cases out <;> simp at he

/-- The handler alone would not do: it panics for programs `Compile` does not make. -/
example (ro : ReaderOps R) (fo : FieldOps T) (rd : R) (t : T) :
    evalGo ro fo ⟨[⟨.jump, -1⟩], []⟩ 3 0 rd t = .panics := rfl

theorem over_enter {ro : ReaderOps R} {fo : FieldOps T} {p : Program} {n d pc a fr fl r t sub}
    (hi : p.instrs[pc]? = some ⟨.enter, a⟩) (hg : fo.get t a = .ok sub)
    (h : ∀ d', d = d' + 1 → evalAt ro fo p n d' (pc + 1) {} false r sub = .overflow) :
    evalAt ro fo p (n + 1) d pc fr fl r t = .overflow := by
  unfold evalAt
  rw [hi]
  simp only [hg]
  cases d with
  | zero => rfl
  | succ d => simp only; rw [h d rfl]

theorem over_call {ro : ReaderOps R} {fo : FieldOps T} {p : Program} {n d pc fr fl r t} {a : Nat}
    (hi : p.instrs[pc]? = some ⟨.call, a⟩)
    (h : ∀ d', d = d' + 1 → evalAt ro fo p n d' a {} false r t = .overflow) :
    evalAt ro fo p (n + 1) d pc fr fl r t = .overflow := by
  unfold evalAt
  rw [hi]
  simp only
  cases d with
  | zero => rfl
  | succ d =>
    have : evalAt ro fo p n d ((a : Int).toNat) {} false r t = .overflow := h d rfl
    simp only
    rw [if_neg (by omega), this]

/-- A list: a record whose one field is the rest or null. -/
def chain : Schema := one qP [fld "next" (.union [.null, .ref qP])]
/-- The program for reading it. -/
def chainCode : List Instr :=
  [⟨.call, 2⟩, ⟨.halt, 0⟩, ⟨.enter, 0⟩, ⟨.read, opLong⟩, ⟨.evalEqual, 0⟩, ⟨.condJump, 10⟩, ⟨.evalEqual, 1⟩,
   ⟨.condJump, 13⟩, ⟨.halt, 1⟩, ⟨.jump, 18⟩, ⟨.setExitNull, 65535⟩, ⟨.jump, 18⟩, ⟨.jump, 18⟩,
   ⟨.setLong, 1⟩, ⟨.set, opLong⟩, ⟨.enter, 1⟩, ⟨.call, 2⟩, ⟨.exit, 65535⟩, ⟨.exit, 65535⟩, ⟨.ret, 65535⟩]
theorem chain_code : ∃ prog, compile Orders.id false chain chain = .ok prog ∧ prog.instrs = chainCode := by
  have h : (compileFuel 9 Orders.id false chain chain).toOption.map (·.instrs) = some chainCode := by decide +kernel
  cases hc : compileFuel 9 Orders.id false chain chain with
  | error e => rw [hc] at h; cases h
  | ok prog =>
    refine ⟨prog, by rw [compile_eq (n := 9) (by rw [hc]; simp), hc], ?_⟩
    rw [hc] at h
    simpa [Except.toOption] using h

/-- The target of generated code for a new list. -/
abbrev chainOps : FieldOps Tgt := genOps chain.env 1000 (fun _ => .int 7)
abbrev chainNew : Tgt := .record [fld "next" (.union [.null, .ref qP])] [none]
theorem chain_level {prog : Program} (hp : prog.instrs = chainCode) : ∀ k d n l, d ≤ 3 * k → 13 * k < n →
    evalAt (chunkOps true) chainOps prog n d 2 {} false [List.replicate k 2 ++ l] chainNew = .overflow := by
  have hrd : ∀ l, doRead (chunkOps true) opLong {} [2 :: l] = .ok ({ long := 1 }, [l]) := by
    intro l
    have : doRead (chunkOps true) opLong {} [2 :: l] = .ok ({ long := 1 }, [l ++ []]) := by with_unfolding_all rfl
    rw [this, List.append_nil]
  have h : ∀ i : Nat, prog.instrs[i]? = chainCode[i]? := fun i => by rw [hp]
  intro k
  induction k with
  | zero =>
    intro d n l hd hn
    obtain ⟨n, rfl⟩ : ∃ m, n = m + 1 := ⟨n - 1, by omega⟩
    exact over_enter (h 2) rfl fun d' hd' => by omega
  | succ k ih =>
    intro d n l hd hn
    obtain ⟨n, rfl⟩ : ∃ m, n = m + 13 := ⟨n - 13, by omega⟩
    refine over_enter (h 2) rfl fun d1 h1 => ?_
    unfold evalAt
    rw [h 3, List.replicate_succ, List.cons_append]
    simp only [chainCode, List.getElem?_cons_succ, List.getElem?_cons_zero, hrd]
    unfold evalAt
    rw [h 4]
    simp only [chainCode, List.getElem?_cons_succ, List.getElem?_cons_zero]
    unfold evalAt
    rw [h 5]
    simp only [chainCode, List.getElem?_cons_succ, List.getElem?_cons_zero]
    rw [if_neg (by decide)]
    unfold evalAt
    rw [h 6]
    simp only [chainCode, List.getElem?_cons_succ, List.getElem?_cons_zero]
    unfold evalAt
    rw [h 7]
    simp only [chainCode, List.getElem?_cons_succ, List.getElem?_cons_zero]
    rw [if_pos (by decide), if_neg (by decide)]
    rw [show Int.toNat 13 = 13 from rfl]
    unfold evalAt
    rw [h 13]
    simp only [chainCode, List.getElem?_cons_succ, List.getElem?_cons_zero]
    unfold evalAt
    rw [h 14]
    simp only [chainCode, List.getElem?_cons_succ, List.getElem?_cons_zero]
    refine over_enter (sub := chainNew) (h 15) rfl fun d2 h2 => ?_
    refine over_call (a := 2) (h 16) fun d3 h3 => ?_
    exact ih _ _ _ (by omega) (by omega)

/-- C78 does not hold for records that contain themselves: however large the stack, there is an
input of a third of that many bytes for which the process ends. (A goroutine's stack is limited,
by default to 1 GB; a panic handler does not run then.) -/
theorem stack_exhausted : ∃ prog, compile Orders.id false chain chain = .ok prog ∧
    ∀ d, ∃ input : List Byte, 3 * input.length ≤ d + 2 ∧ ∃ fuel, ∀ n, fuel ≤ n →
      evalGo (chunkOps true) chainOps prog n d [input] chainNew = .killed := by
  obtain ⟨prog, h1, h2⟩ := chain_code
  refine ⟨prog, h1, fun d => ⟨List.replicate ((d + 2) / 3) 2, ?_, 13 * ((d + 2) / 3) + 2, fun n hn => ?_⟩⟩
  · rw [List.length_replicate]; omega
  · unfold evalGo
    obtain ⟨n, rfl⟩ : ∃ m, n = m + 1 := ⟨n - 1, by omega⟩
    have h0 : prog.instrs[0]? = some ⟨.call, (2 : Nat)⟩ := by rw [h2]; rfl
    rw [over_call (a := 2) h0]
    intro d' hd'
    have := chain_level h2 ((d + 2) / 3) d' n [] (by omega) (by omega)
    rwa [List.append_nil] at this

/-- A record with an array of ints. -/
def row : Schema := one qP [fld "l" (.array .int)]
/-- The program for reading it, up to the first item. -/
def rowCode : List Instr :=
  [⟨.call, 2⟩, ⟨.halt, 0⟩, ⟨.enter, 0⟩, ⟨.read, opLong⟩, ⟨.evalEqual, 0⟩, ⟨.condJump, 21⟩, ⟨.evalGreater, 0⟩,
   ⟨.condJump, 10⟩, ⟨.read, opUnusedLong⟩, ⟨.multLong, -1⟩, ⟨.hintSize, opUnusedLong⟩, ⟨.pushLoop, 0⟩,
   ⟨.appendArray, 0⟩, ⟨.read, opInt⟩]
theorem row_code : ∃ prog, compile Orders.id false row row = .ok prog ∧ prog.instrs.take 14 = rowCode := by
  have h : (compileFuel 9 Orders.id false row row).toOption.map (fun p => p.instrs.take 14) = some rowCode := by decide +kernel
  cases hc : compileFuel 9 Orders.id false row row with
  | error e => rw [hc] at h; cases h
  | ok prog =>
    refine ⟨prog, by rw [compile_eq (n := 9) (by rw [hc]; simp), hc], ?_⟩
    rw [hc] at h
    simpa [Except.toOption] using h

theorem err_call {ro : ReaderOps R} {fo : FieldOps T} {p : Program} {n pc fr fl r t e} {a : Nat}
    (hi : p.instrs[pc]? = some ⟨.call, a⟩)
    (h : evalInner ro fo p n a {} false r t = .err e) : evalInner ro fo p (n + 1) pc fr fl r t = .err e := by
  rw [evalInner, hi]
  simp only
  rw [if_neg (by omega), show ((a : Int).toNat) = a from rfl, h]
theorem err_enter {ro : ReaderOps R} {fo : FieldOps T} {p : Program} {n pc fr fl r t e a sub}
    (hi : p.instrs[pc]? = some ⟨.enter, a⟩) (hg : fo.get t a = .ok sub)
    (h : evalInner ro fo p n (pc + 1) {} false r sub = .err e) : evalInner ro fo p (n + 1) pc fr fl r t = .err e := by
  rw [evalInner, hi]
  simp only [hg]
  rw [h]
theorem err_append {ro : ReaderOps R} {fo : FieldOps T} {p : Program} {n pc fr fl r t e a sub}
    (hi : p.instrs[pc]? = some ⟨.appendArray, a⟩) (hg : fo.appendArray t = .ok sub)
    (h : evalInner ro fo p n (pc + 1) {} false r sub = .err e) : evalInner ro fo p (n + 1) pc fr fl r t = .err e := by
  rw [evalInner, hi]
  simp only [hg]
  rw [h]
theorem err_loop {ro : ReaderOps R} {fo : FieldOps T} {p : Program} {n pc fr fl r t e a}
    (hi : p.instrs[pc]? = some ⟨.pushLoop, a⟩)
    (h : evalInner ro fo p n (pc + 1) {} false r t = .err e) : evalInner ro fo p (n + 1) pc fr fl r t = .err e := by
  rw [evalInner, hi]
  simp only
  rw [h]

/-- C78: memory. Ten bytes make the decoder ask the runtime for room for any number of items
below 2^63 before it has read one of them: it fails there (`make` panics) exactly if the number
is above what the runtime grants, and otherwise fails only when it finds no item. What the
runtime grants but the machine has not got ends the process. -/
theorem memory_asked : ∃ prog, compile Orders.id false row row = .ok prog ∧
    ∀ n : Nat, 0 < n → n < 2 ^ 63 → ∃ input : List Byte, input.length ≤ 10 ∧
      ∀ lim dv, Evaluates (flatOps true) (genOps row.env lim dv) prog input (.new row.env row.root none)
        (.error (if lim < n then .panic else .eof)) := by
  obtain ⟨prog, h1, h2⟩ := row_code
  refine ⟨prog, h1, fun n h0 hn => ⟨encodeInt (zigzag64 (BitVec.ofNat 64 n)), ?_, fun lim dv => ⟨20, ?_⟩⟩⟩
  · have := long_length false (BitVec.ofNat 64 n)
    simpa [writeLong, emit, Trace.bytes] using this
  · have hrd : doRead (flatOps true) opLong {} (encodeInt (zigzag64 (BitVec.ofNat 64 n))) = .ok ({ long := BitVec.ofNat 64 n }, []) := by
      have := readLong_encodeInt true (BitVec.ofNat 64 n) []
      rw [List.append_nil] at this
      simp [doRead, opLong, opNull, opBoolean, opInt, this, mapOk]
    have hi : (BitVec.ofNat 64 n).toInt = n := by
      rw [BitVec.toInt_eq_toNat_cond, BitVec.toNat_ofNat, Nat.mod_eq_of_lt (by omega)]; omega
    have h : ∀ i : Nat, i < 14 → prog.instrs[i]? = rowCode[i]? := by
      intro i hi; rw [← h2, List.getElem?_take, if_pos hi]
    generalize encodeInt (zigzag64 (BitVec.ofNat 64 n)) = input at hrd
    have main : evalInner (flatOps true) (genOps row.env lim dv) prog 20 0 {} false input (.new row.env row.root none)
      = .err (if lim < n then .panic else .eof) := by
      refine err_call (a := 2) (h 0 (by omega)) ?_
      refine err_enter (sub := .array .int []) (h 2 (by omega)) rfl ?_
      rw [evalInner, h 3 (by omega)]
      simp only [rowCode, List.getElem?_cons_succ, List.getElem?_cons_zero, hrd]
      rw [evalInner, h 4 (by omega)]
      simp only [rowCode, List.getElem?_cons_succ, List.getElem?_cons_zero]
      rw [evalInner, h 5 (by omega)]
      simp only [rowCode, List.getElem?_cons_succ, List.getElem?_cons_zero]
      rw [if_neg (by simp only [hi, decide_eq_true_eq]; omega), evalInner, h 6 (by omega)]
      simp only [rowCode, List.getElem?_cons_succ, List.getElem?_cons_zero]
      rw [evalInner, h 7 (by omega)]
      simp only [rowCode, List.getElem?_cons_succ, List.getElem?_cons_zero]
      rw [if_pos (by simp only [hi, decide_eq_true_eq]; omega), if_neg (by decide), show Int.toNat 10 = 10 from rfl,
        evalInner, h 10 (by omega)]
      simp only [rowCode, List.getElem?_cons_succ, List.getElem?_cons_zero]
      have hh : (genOps row.env lim dv).hintSize (.array .int [])
          (BitVec.ofNat 64 n) = if lim < n then .error .panic else .ok (.array .int []) := by
        show genHintSize lim (.array .int []) _ = _
        unfold genHintSize
        simp only [hi]
        by_cases hl : lim < n
        · rw [if_pos hl, if_pos ⟨trivial, .inr (by omega)⟩]
        · rw [if_neg hl, if_neg (by rintro ⟨_, h | h⟩ <;> omega)]
      rw [hh]
      by_cases hl : lim < n
      · rw [if_pos hl, if_pos hl]
      · rw [if_neg hl, if_neg hl]
        simp only
        refine err_loop (h 11 (by omega)) ?_
        refine err_append (h 12 (by omega)) rfl ?_
        rw [evalInner, h 13 (by omega)]
        rfl
    unfold evalProg
    rw [main]

/-- How a call ends. -/
def ending : CallEnd R T → String
  | .returns _ _ => "returns"
  | .error => "error"
  | .panics => "panics"
  | .killed => "killed"
  | .timeout => "timeout"

/-- The program for `w` and `r` on some bytes, with a stack for `d` activations, if it compiles. -/
def endingOf (w r : Schema) (d : Nat) (input : List Byte) : Option String :=
  (compileFuel 12 Orders.id false w r).toOption.map fun p =>
    ending (evalGo (chunkOps true) (genOps r.env 1000 (fun _ => .int 7)) p 60 d [input]
      (.new r.env r.root none))

/-- A list of two; a list that breaks off; a list too long for the stack. -/
example : endingOf chain chain 9 [2, 0] = some "returns" ∧ endingOf chain chain 9 [2] = some "error" ∧
    endingOf chain chain 9 [2, 2, 2, 2] = some "killed" := by decide +kernel

/-- A panic that becomes an error: `make` for 2000 items, where 1000 is the most. -/
example : endingOf (one qP [fld "l" (.array .int)]) (one qP [fld "l" (.array .int)]) 9 [0xa0, 0x1f, 2] =
    some "error" := by decide +kernel

/-- The program that jumps beyond its end (C25) does not panic either. -/
example : endingOf (optW [.null, .int]) nullR 9 [2] = some "returns" ∧
    endingOf (optW [.null, .int]) nullR 9 [0] = some "error" := by decide +kernel

/-- C78: if no record of the writer contains itself, directly or through others, a stack
for three activations a level of nesting is enough: for every reader, every target and every input,
valid or not, the process does not end. The bound depends on the writer's schema alone. What is
missing: records that contain themselves, where it does not hold (`stack_exhausted`), and schemas
that are not `Sound`, among them those in which two records share a Go name, where it does not hold
either (`stack_exhausted_by_names`). -/
theorem stack_suffices_partial {ord : Orders} {w r : Schema} {prog : Program} {k : Nat} (hs : Sound w r)
    (hk : Nests w.env k w.root) (h : compile ord false w r = .ok prog) (ro : ReaderOps R) (fo : FieldOps T)
    (fuel d : Nat) (hd : 3 * k + 1 ≤ d) (rd : R) (t : T) : evalGo ro fo prog fuel d rd t ≠ .killed := by
  obtain ⟨main, st, h1, h2⟩ := compile_ok h
  obtain ⟨hc, hn⟩ := hs.clean h1
  exact not_killed (compiled_room ro fo (no_meter ro) (nests_levels _) (s := 0) hs.namesW hs.namesR hs.sizes hs.tidyR hs.rootR h1 hc hn
    hk h2 fuel d hd rd t (Nat.le_refl _))

/-- C78: for such schemas whatever the evaluation comes to, the call comes to, with the same
stack for all inputs. -/
theorem eval_reported_flat_partial {ord : Orders} {w r : Schema} {prog : Program} {k : Nat} (hs : Sound w r)
    (hk : Nests w.env k w.root) (h : compile ord false w r = .ok prog) {ro : ReaderOps R} {fo : FieldOps T}
    {rd : R} {t : T} {out} (he : Evaluates ro fo prog rd t out) :
    ∃ fuel, evalGo ro fo prog fuel (3 * k + 1) rd t =
      (match out with | .ok (rd', t') => .returns rd' t' | .error _ => .error) :=
  reported h (fun fuel => stack_suffices_partial hs hk h ro fo fuel _ (Nat.le_refl _) rd t) he

/-- C78: records that contain themselves, but not by record fields alone. The stack that is needed
grows at most linearly with the input, whatever the bytes: every level of the data other than a
record takes a byte. `rank` and `K` say how deep records are nested directly. -/
theorem stack_by_length_partial {ord : Orders} {w r : Schema} {prog : Program} (hs : Sound w r) {rank : QName → Nat} {K : Nat}
    (hK : ∀ q, rank q ≤ K)
    (hr : ∀ q d fs, w.env.find q = some d → d.kind = .record fs → ∀ f ∈ fs, ∀ q', f.ty = .ref q' → rank q' < rank q)
    (h : compile ord false w r = .ok prog) {ro : ReaderOps R} {view : R → List Byte} (hv : ro.Delivers view) (fo : FieldOps T)
    (fuel d : Nat) (rd : R) (t : T) (hd : 3 * ((K + 3) * (view rd).length + K + 2) + 1 ≤ d) :
    evalGo ro fo prog fuel d rd t ≠ .killed := by
  obtain ⟨main, st, h1, h2⟩ := compile_ok h
  obtain ⟨hc, hn⟩ := hs.clean h1
  refine not_killed (compiled_room ro fo (delivers_meter hv) (rank_levels hK hr) (s := (view rd).length)
    (k := (K + 3) * (view rd).length + K + 2) hs.namesW hs.namesR hs.sizes hs.tidyR hs.rootR h1 hc hn ?_ h2 fuel d hd rd t
    (Nat.le_refl _))
  have := Ty.rankBy_le hK w.root
  show _ + _ ≤ _
  omega

/-- C78: if no record of the writer contains itself by way of record fields alone, there is a number
for the two schemas so that a stack of that many activations for every byte, and once more, suffices
for all readers, targets and inputs. -/
theorem stack_linear_partial {ord : Orders} {w r : Schema} {prog : Program} (hs : Sound w r) (hg : Grounded w.env)
    (h : compile ord false w r = .ok prog) : ∃ c, ∀ {R T : Type} {ro : ReaderOps R} {view : R → List Byte} (fo : FieldOps T),
      ro.Delivers view → ∀ (fuel d : Nat) (rd : R) (t : T), c * ((view rd).length + 1) ≤ d →
      evalGo ro fo prog fuel d rd t ≠ .killed := by
  obtain ⟨rank, K, hK, hr⟩ := grounded_bounded hg
  refine ⟨3 * (K + 3), fun {R T ro view} fo hv fuel d rd t hd => stack_by_length_partial hs hK hr h hv fo fuel d rd t ?_⟩
  rw [Nat.mul_succ, Nat.mul_assoc] at hd
  omega

/-- C78: with such a stack the caller sees what the evaluation comes to. -/
theorem eval_reported_linear_partial {ord : Orders} {w r : Schema} {prog : Program} (hs : Sound w r) (hg : Grounded w.env)
    (h : compile ord false w r = .ok prog) : ∃ c, ∀ {R T : Type} {ro : ReaderOps R} {view : R → List Byte} (fo : FieldOps T),
      ro.Delivers view → ∀ (rd : R) (t : T) {out}, Evaluates ro fo prog rd t out → ∃ fuel,
        evalGo ro fo prog fuel (c * ((view rd).length + 1)) rd t =
          (match out with | .ok (rd', t') => .returns rd' t' | .error _ => .error) := by
  obtain ⟨c, hc⟩ := stack_linear_partial hs hg h
  refine ⟨c, fun fo hv rd t out he => ?_⟩
  obtain ⟨fuel, hf⟩ := reported h (fun fuel => hc fo hv fuel _ rd t (Nat.le_refl _)) he
  refine ⟨fuel, ?_⟩
  cases out <;> exact hf

/-- The chain meets the hypotheses. -/
theorem chain_grounded : Grounded chain.env := by
  refine ⟨fun _ => 0, ?_⟩
  intro q d fs hd hk f hf q' ht
  simp only [chain, one, Env.find] at hd
  split at hd
  · cases hd
    cases hk
    simp only [List.mem_cons, List.not_mem_nil, or_false] at hf
    subst hf
    cases ht
  · cases hd
example : ∃ prog c, compile Orders.id false chain chain = .ok prog ∧ ∀ n fuel, evalGo (chunkOps true) chainOps prog fuel
    (c * (n + 1)) [List.replicate n 2] chainNew ≠ .killed := by
  obtain ⟨prog, h, _⟩ := chain_code
  obtain ⟨c, hc⟩ := stack_linear_partial (suited_of (by decide +kernel)).toSound chain_grounded h
  exact ⟨prog, c, h, fun n fuel => hc chainOps (chunked_delivers true) fuel _ _ _ (by simp)⟩

/-- A record whose one field is the record itself. -/
def endless : Schema := one qP [fld "self" (.ref qP)]
theorem endless_code : ∃ prog, compile Orders.id false endless endless = .ok prog ∧
    prog.instrs = [⟨.call, 2⟩, ⟨.halt, 0⟩, ⟨.enter, 0⟩, ⟨.call, 2⟩, ⟨.exit, 65535⟩, ⟨.ret, 65535⟩] := by
  have h : (compileFuel 9 Orders.id false endless endless).toOption.map (·.instrs) =
    some [⟨.call, 2⟩, ⟨.halt, 0⟩, ⟨.enter, 0⟩, ⟨.call, 2⟩, ⟨.exit, 65535⟩, ⟨.ret, 65535⟩] := by decide +kernel
  cases hc : compileFuel 9 Orders.id false endless endless with
  | error e => rw [hc] at h; cases h
  | ok prog =>
    refine ⟨prog, by rw [compile_eq (n := 9) (by rw [hc]; simp), hc], ?_⟩
    rw [hc] at h
    simpa [Except.toOption] using h

/-- C78 needs that condition: for a record whose field is the record itself `Compile`
makes a program for it, and the process ends on every input, the empty one too. -/
theorem stack_exhausted_at_once : ∃ prog, compile Orders.id false endless endless = .ok prog ∧
    ∀ (rd : List (List Byte)) d, ∃ fuel, ∀ n, fuel ≤ n →
      evalGo (chunkOps true) (genOps endless.env 1000 (fun _ => .int 7)) prog n d rd (.record [fld "self" (.ref qP)] [none]) = .killed := by
  obtain ⟨prog, h1, h2⟩ := endless_code
  refine ⟨prog, h1, fun rd d => ?_⟩
  have h : ∀ i : Nat, prog.instrs[i]? = _ := fun i => by rw [h2]
  have key : ∀ d n, 2 * d < n → evalAt (chunkOps true) (genOps endless.env 1000 (fun _ => .int 7)) prog n d 2 {} false rd
      (.record [fld "self" (.ref qP)] [none]) = .overflow := by
    intro d
    induction d using Nat.strongRecOn with
    | ind d ih =>
      intro n hn
      obtain ⟨n, rfl⟩ : ∃ m, n = m + 1 := ⟨n - 1, by omega⟩
      refine over_enter (sub := .record [fld "self" (.ref qP)] [none]) (h 2) rfl fun d1 h1 => ?_
      obtain ⟨n, rfl⟩ : ∃ m, n = m + 1 := ⟨n - 1, by omega⟩
      refine over_call (a := 2) (h 3) fun d2 h2 => ?_
      exact ih d2 (by omega) n (by omega)
  refine ⟨2 * d + 2, fun n hn => ?_⟩
  unfold evalGo
  obtain ⟨n, rfl⟩ : ∃ m, n = m + 1 := ⟨n - 1, by omega⟩
  rw [over_call (a := 2) (h 0) fun d1 h1 => key d1 n (by omega)]

/-- A record in a record, with an array of optional numbers. -/
def rowsFields : List Field := [fld "l" (.array (.union [.null, .long]))]
def rows : Schema :=
  { env := [(qP, { name := qP, kind := .record [fld "r" (.ref qE2)] }), (qE2, { name := qE2, kind := .record rowsFields })]
    root := .ref qP }
theorem rows_nests : Nests rows.env 4 rows.root := by
  refine .ref (d := { name := qP, kind := .record [fld "r" (.ref qE2)] }) rfl ?_
  intro fs hfs f hf
  cases hfs
  simp only [List.mem_cons, List.not_mem_nil, or_false] at hf
  subst hf
  refine .ref (d := { name := qE2, kind := .record rowsFields }) rfl ?_
  intro fs hfs f hf
  cases hfs
  simp only [rowsFields, List.mem_cons, List.not_mem_nil, or_false] at hf
  subst hf
  refine .array (.union ?_)
  intro t ht
  simp only [List.mem_cons, List.not_mem_nil, or_false] at ht
  rcases ht with rfl | rfl
  · exact .null
  · exact .long
/-- The hypotheses are met, and the bound is for all inputs: three items here, with a stack for
thirteen. -/
example : (∃ prog, compile Orders.id false rows rows = .ok prog ∧ ∀ (rd : List (List Byte)) (t : Tgt) n,
    evalGo (chunkOps true) (genOps rows.env 1000 (fun _ => .int 7)) prog n 13 rd t ≠ .killed) ∧
    endingOf rows rows 13 [6, 0, 2, 8, 0, 0] = some "returns" := by
  refine ⟨?_, by decide +kernel⟩
  obtain ⟨prog, h⟩ := compiles_of (n := 12) (w := rows) (r := rows) (by decide +kernel)
  exact ⟨prog, h, fun rd t n => stack_suffices_partial (suited_of (by decide +kernel)).toSound rows_nests h _ _ n 13 (by decide) rd t⟩
/-- A chain of records has no depth. -/
example (k : Nat) : ¬ Nests chain.env k chain.root := by
  have key : ∀ k t, Nests chain.env k t → t ≠ .ref qP ∧ t ≠ .union [.null, .ref qP] := by
    intro k
    induction k with
    | zero => intro t h; cases h <;> exact ⟨by simp, by simp⟩
    | succ k ih =>
      intro t h
      cases h <;> refine ⟨?_, ?_⟩ <;> try (intro h; cases h; done)
      · rename_i ts hm
        intro he
        cases he
        exact (ih _ (hm (.ref qP) (by simp))).1 rfl
      · rename_i q d hd hf
        intro he
        cases he
        cases hd
        exact (ih _ (hf _ rfl _ (by simp : fld "next" (.union [.null, .ref qP]) ∈ _))).2 rfl
  exact fun h => (key k _ h).1 rfl

/-- Three records of the same short name in different namespaces, each the only field of the one
before. -/
def qSameX (ns : String) : QName := ⟨ns.toList, "X".toList⟩
def sameX : Schema :=
  { env := [(qSameX "a", { name := qSameX "a", kind := .record [fld "f" (.ref (qSameX "b"))] }),
            (qSameX "b", { name := qSameX "b", kind := .record [fld "g" (.ref (qSameX "c"))] }),
            (qSameX "c", { name := qSameX "c", kind := .record [fld "h" .int] })]
    root := .ref (qSameX "a") }
theorem sameX_nests : Nests sameX.env 3 sameX.root := by
  refine .ref (d := { name := qSameX "a", kind := .record [fld "f" (.ref (qSameX "b"))] }) rfl ?_
  intro fs hfs f hf
  cases hfs
  simp only [List.mem_cons, List.not_mem_nil, or_false] at hf
  subst hf
  refine .ref (d := { name := qSameX "b", kind := .record [fld "g" (.ref (qSameX "c"))] }) rfl ?_
  intro fs hfs f hf
  cases hfs
  simp only [List.mem_cons, List.not_mem_nil, or_false] at hf
  subst hf
  refine .ref (d := { name := qSameX "c", kind := .record [fld "h" .int] }) rfl ?_
  intro fs hfs f hf
  cases hfs
  simp only [List.mem_cons, List.not_mem_nil, or_false] at hf
  subst hf
  exact .int

/-- C78 and C26: a writer's schema, such as a file brings along, can end the process of any reader
of a record, whatever the data. The schema below has no record that contains itself; the reader
has a record without fields and skips the writer's. The method that skips `b.X` is the one for
`c.X`, so that it calls itself, and reads nothing. -/
theorem stack_exhausted_by_names : Nests sameX.env 3 sameX.root ∧
    ∃ prog, compile Orders.id false sameX (one (qSameX "a") []) = .ok prog ∧
      ∀ (R T : Type) (ro : ReaderOps R) (fo : FieldOps T) (d : Nat) (rd : R) (t : T),
        ∃ fuel, ∀ n, fuel ≤ n → evalGo ro fo prog n d rd t = .killed := by
  refine ⟨sameX_nests, ?_⟩
  have h : (compileFuel 9 Orders.id false sameX (one (qSameX "a") [])).toOption.map (·.instrs) =
      some [⟨.call, 4⟩, ⟨.halt, 0⟩, ⟨.call, 2⟩, ⟨.ret, 65535⟩, ⟨.call, 2⟩, ⟨.ret, 65535⟩] := by decide +kernel
  cases hc : compileFuel 9 Orders.id false sameX (one (qSameX "a") []) with
  | error e => rw [hc] at h; cases h
  | ok prog =>
    refine ⟨prog, by rw [compile_eq (n := 9) (by rw [hc]; simp), hc], ?_⟩
    rw [hc] at h
    have hp : prog.instrs = [⟨.call, 4⟩, ⟨.halt, 0⟩, ⟨.call, 2⟩, ⟨.ret, 65535⟩, ⟨.call, 2⟩, ⟨.ret, 65535⟩] := by
      simpa [Except.toOption] using h
    intro R T ro fo d rd t
    have skip : ∀ d n, d < n → ∀ fr fl (rd : R) (t : T), evalAt ro fo prog n d 2 fr fl rd t = .overflow := by
      intro d
      induction d with
      | zero =>
        intro n hn fr fl rd t
        obtain ⟨n, rfl⟩ : ∃ m, n = m + 1 := ⟨n - 1, by omega⟩
        exact over_call (a := 2) (by rw [hp]; rfl) fun d' hd' => by omega
      | succ d ih =>
        intro n hn fr fl rd t
        obtain ⟨n, rfl⟩ : ∃ m, n = m + 1 := ⟨n - 1, by omega⟩
        exact over_call (a := 2) (by rw [hp]; rfl) fun d' hd' => by
          obtain rfl : d = d' := by omega
          exact ih n (by omega) _ _ _ _
    refine ⟨d + 2, fun n hn => ?_⟩
    obtain ⟨n, rfl⟩ : ∃ m, n = m + 2 := ⟨n - 2, by omega⟩
    unfold evalGo
    rw [over_call (a := 4) (by rw [hp]; rfl)]
    intro d' hd'
    exact over_call (a := 2) (by rw [hp]; rfl) fun d'' hd'' => skip d'' n (by omega) _ _ _ _

end Verif.Props
