import Verif.Compiler.Compile
/-
The shape of what the compiler emits, as a grammar. Everything about offsets,
identifiers and method tables follows from the shape.
-/
set_option linter.unusedSimpArgs false
set_option linter.unusedVariables false
namespace Verif

/-- A piece of code, or the cases `i` to `size - 1` of switch `id`. -/
inductive Mode where
  | code
  | cases (id i size : Nat)

/-- Literal instructions that neither halt nor jump. -/
def Op.isPlain : Op → Bool
  | .read | .set | .enter | .exit | .setExitNull | .appendArray | .appendMap | .setDefault
  | .setLong | .setInt => true
  | _ => false

/-- What may be assumed of the body of a method and the state after it. -/
abbrev BodyPred := MKey → Pair → List IR → CState → Prop

inductive Emits (Q : BodyPred) : Mode → CState → List IR → CState → Prop
  | nil {st} : Emits Q .code st [] st
  | lit {st op arg} : op.isPlain = true → Emits Q .code st [lit op arg] st
  | halt {st m} : Emits Q .code st [lit .halt ((st.errors.length + 1 : Nat) : Int)] (st.addError m)
  | seq {st a st1 b st2} : Emits Q .code st a st1 → Emits Q .code st1 b st2 → Emits Q .code st (a ++ b) st2
  | block {st a st'} : Emits Q .code st.addBlock a st' →
      Emits Q .code st (.blockStart st.blocks :: (a ++ [.blockEnd st.blocks])) st'
  | switch {st m size a st'} :
      Emits Q (.cases st.switches.length 0 size) ((st.addError m).addSwitch size) a st' →
      Emits Q .code st
        (.switchStart st.switches.length size (st.errors.length + 1) ::
          (a ++ [.switchEnd st.switches.length])) st'
  | callOld {st key pair c} : findMethod st.started key = some pair →
      (st.collision = true → c = true) →
      Emits Q .code st [.call key] { st with collision := c }
  | callNew {st key pair body st'} : findMethod st.started key = none →
      Emits Q .code { st with started := st.started ++ [(key, pair)] } body st' →
      Q key pair body st' →
      Emits Q .code st [.call key] { st' with bodies := st'.bodies ++ [(key, body)] }
  | casesNil {st id i} : Emits Q (.cases id i i) st [] st
  | case {st id i size a st1 b st2} : Emits Q .code st a st1 →
      Emits Q (.cases id (i + 1) size) st1 b st2 →
      Emits Q (.cases id i size) st (.switchCase id i false :: (a ++ b)) st2
  | caseTwice {st id i size a st1 b st2} : Emits Q .code st a st1 →
      Emits Q (.cases id (i + 1) size) st1 b st2 →
      Emits Q (.cases id i size) st (.switchCase id i true :: .switchCase id i false :: (a ++ b)) st2
  | caseLost {st id i size op arg b st2} : op.isPlain = true →
      Emits Q (.cases id (i + 1) size) { st with nullNarrow := true } b st2 →
      Emits Q (.cases id i size) st (Verif.lit op arg :: b) st2

section
variable {Q : BodyPred}

theorem wrapIR_ok {pre post : List IR} {x : CRes} {irs st} (h : wrapIR pre post x = .ok (irs, st)) :
    ∃ mid, x = .ok (mid, st) ∧ irs = pre ++ mid ++ post := by
  cases x with
  | error e => simp [wrapIR] at h
  | ok y => obtain ⟨mid, s⟩ := y; simp only [wrapIR, Except.ok.injEq, Prod.mk.injEq] at h
            exact ⟨mid, by rw [h.2], h.1.symm⟩

theorem seqIR_ok {a : CRes} {b : CState → CRes} {irs st} (h : seqIR a b = .ok (irs, st)) :
    ∃ x s y, a = .ok (x, s) ∧ b s = .ok (y, st) ∧ irs = x ++ y := by
  cases a with
  | error e => simp [seqIR] at h
  | ok z =>
    obtain ⟨x, s⟩ := z
    obtain ⟨y, h1, h2⟩ := wrapIR_ok (show wrapIR x [] (b s) = _ from h)
    exact ⟨x, s, y, rfl, h1, by simpa using h2⟩

theorem emits_lits (st : CState) : ∀ l : List IR, (∀ x ∈ l, ∃ op arg, x = lit op arg ∧ op.isPlain = true) →
    Emits Q .code st l st := by
  intro l
  induction l with
  | nil => intro _; exact .nil
  | cons x l ih =>
    intro h
    obtain ⟨op, arg, rfl, hp⟩ := h x (by simp)
    exact Emits.seq (a := [lit op arg]) (.lit hp) (ih fun y hy => h y (by simp [hy]))

theorem emits_unionEnter (st : CState) (i : Nat) : Emits Q .code st (unionEnter i) st :=
  emits_lits st _ (by
    intro x hx
    simp only [unionEnter, List.mem_cons, List.not_mem_nil, or_false] at hx
    rcases hx with rfl | rfl | rfl <;> exact ⟨_, _, rfl, rfl⟩)

theorem emits_prim (st : CState) (x : Int) (r : Option Ty) : Emits Q .code st (compilePrim x r) st :=
  emits_lits st _ (by
    intro y hy
    unfold compilePrim at hy
    cases r <;> simp at hy
    · subst hy; exact ⟨_, _, rfl, rfl⟩
    · rcases hy with rfl | rfl <;> exact ⟨_, _, rfl, rfl⟩)

theorem emits_fixed (st : CState) (x : Int) (r : Bool) : Emits Q .code st (compileFixed x r) st :=
  emits_lits st _ (by
    intro y hy
    unfold compileFixed at hy
    cases r <;> simp at hy
    · subst hy; exact ⟨_, _, rfl, rfl⟩
    · rcases hy with rfl | rfl <;> exact ⟨_, _, rfl, rfl⟩)

/-- The recursive compile function emits code. -/
def RecEmits (Q : BodyPred) (rec : CState → Ty → Option Ty → CRes) : Prop :=
  ∀ st w r irs st', rec st w r = .ok (irs, st') → Emits Q .code st irs st'

theorem emits_wrap {st a st'} (pre post : List IR) (h : Emits Q .code st a st')
    (hpre : ∀ x ∈ pre, ∃ op arg, x = lit op arg ∧ op.isPlain = true)
    (hpost : ∀ x ∈ post, ∃ op arg, x = lit op arg ∧ op.isPlain = true) :
    Emits Q .code st (pre ++ a ++ post) st' :=
  .seq (.seq (emits_lits st pre hpre) h) (emits_lits st' post hpost)

theorem plain_exit (x : Int) : ∀ y ∈ [lit .exit x], ∃ op arg, y = lit op arg ∧ op.isPlain = true := by
  intro y hy
  simp only [List.mem_cons, List.not_mem_nil, or_false] at hy
  subst hy; exact ⟨_, _, rfl, rfl⟩

theorem plain_unionEnter (i : Nat) :
    ∀ y ∈ unionEnter i, ∃ op arg, y = lit op arg ∧ op.isPlain = true := by
  intro x hx
  simp only [unionEnter, List.mem_cons, List.not_mem_nil, or_false] at hx
  rcases hx with rfl | rfl | rfl <;> exact ⟨_, _, rfl, rfl⟩

theorem emits_symbols (id : Nat) (rs : List Str) (d : Str) : ∀ (ss : List Str) (i : Nat) st irs st',
    compileSymbols id rs d i ss st = .ok (irs, st') →
    Emits Q (.cases id i (i + ss.length)) st irs st' := by
  intro ss
  induction ss with
  | nil =>
    intro i st irs st' h
    simp only [compileSymbols, Except.ok.injEq, Prod.mk.injEq] at h
    obtain ⟨rfl, rfl⟩ := h
    exact .casesNil
  | cons s ss ih =>
    intro i st irs st' h
    have hsz : i + (s :: ss).length = (i + 1) + ss.length := by simp; omega
    rw [hsz]
    have hset : ∀ k : Nat, ∀ mid st1, compileSymbols id rs d (i + 1) ss st = .ok (mid, st1) →
        Emits Q (.cases id i ((i + 1) + ss.length)) st
          ([IR.switchCase id i false, lit .setInt k, lit .set opInt] ++ mid ++ []) st1 := by
      intro k mid st1 hm
      have h2 : Emits Q .code st [lit .setInt k, lit .set opInt] st :=
        emits_lits _ _ (by
          intro x hx
          simp only [List.mem_cons, List.not_mem_nil, or_false] at hx
          rcases hx with rfl | rfl <;> exact ⟨_, _, rfl, rfl⟩)
      simpa using Emits.case h2 (ih _ _ _ _ hm)
    unfold compileSymbols at h
    cases hk : symbolIndex rs s with
    | some k =>
      simp only [hk] at h
      obtain ⟨mid, hm, rfl⟩ := wrapIR_ok h
      exact hset k mid st' hm
    | none =>
      simp only [hk] at h
      by_cases hd : d ≠ []
      · rw [if_pos hd] at h
        cases hk' : symbolIndex rs d with
        | none => simp [hk'] at h
        | some k =>
          simp only [hk'] at h
          obtain ⟨mid, hm, rfl⟩ := wrapIR_ok h
          exact hset k mid st' hm
      · rw [if_neg hd] at h
        obtain ⟨mid, hm, rfl⟩ := wrapIR_ok h
        have := Emits.case (id := id) (i := i) (Emits.halt (st := st) (m := .noSymbol s)) (ih _ _ _ _ hm)
        simpa using this

theorem emits_enum {ws reader st irs st'} (h : compileEnum ws reader st = .ok (irs, st')) :
    Emits Q .code st irs st' := by
  unfold compileEnum at h
  cases reader with
  | none =>
    simp only [Except.ok.injEq, Prod.mk.injEq] at h
    obtain ⟨rfl, rfl⟩ := h
    exact .lit rfl
  | some x =>
    obtain ⟨rs, d⟩ := x
    simp only at h
    obtain ⟨mid, hm, rfl⟩ := wrapIR_ok h
    have h1 := emits_symbols (Q := Q) _ _ _ _ _ _ _ _ hm
    rw [Nat.zero_add] at h1
    have h2 := Emits.switch h1
    exact Emits.seq (a := [lit .read opLong]) (.lit rfl) h2

theorem emits_member {we re rec} (hrec : RecEmits Q rec) {id i t reader st irs st'}
    (h : compileMember we re rec id i t reader st = .ok (irs, st')) {b st2 size}
    (hb : Emits Q (.cases id (i + 1) size) st' b st2) :
    Emits Q (.cases id i size) st (irs ++ b) st2 := by
  have hnull : ∀ {st}, Emits Q .code st [lit .setExitNull noopField] st := .lit rfl
  have hE : ∀ j, ∀ mid, Emits Q .code st mid st' →
      Emits Q .code st (unionEnter j ++ mid ++ [lit .exit noopField]) st' := fun j mid hm =>
    emits_wrap _ _ hm (plain_unionEnter j) (plain_exit _)
  unfold compileMember at h
  split at h
  · obtain ⟨mid, hm, rfl⟩ := wrapIR_ok h
    simpa using Emits.case (hrec _ _ _ _ _ hm) hb
  · split at h
    · split at h
      · simp only [Except.ok.injEq, Prod.mk.injEq] at h
        obtain ⟨rfl, rfl⟩ := h
        exact Emits.case hnull hb
      · rename_i j r _ _
        obtain ⟨mid, hm, rfl⟩ := wrapIR_ok h
        have := Emits.caseTwice (hE j _ (hrec _ _ _ _ _ hm)) hb
        simpa using this
    · split at h
      · split at h
        · simp only [Except.ok.injEq, Prod.mk.injEq] at h
          obtain ⟨rfl, rfl⟩ := h
          exact Emits.case hnull hb
        · rename_i j r _ _
          obtain ⟨mid, hm, rfl⟩ := wrapIR_ok h
          have := Emits.case (hE j _ (hrec _ _ _ _ _ hm)) hb
          simpa using this
      · simp only [Except.ok.injEq, Prod.mk.injEq] at h
        obtain ⟨rfl, rfl⟩ := h
        exact Emits.case Emits.halt hb
  · split at h
    · split at h
      · simp only [Except.ok.injEq, Prod.mk.injEq] at h
        obtain ⟨rfl, rfl⟩ := h
        exact Emits.caseLost rfl hb
      · obtain ⟨mid, hm, rfl⟩ := wrapIR_ok h
        simpa using Emits.case (hrec _ _ _ _ _ hm) hb
    · simp only [Except.ok.injEq, Prod.mk.injEq] at h
      obtain ⟨rfl, rfl⟩ := h
      exact Emits.case Emits.halt hb

theorem emits_members {we re rec} (hrec : RecEmits Q rec) {id reader} : ∀ (ts : List Ty) (i : Nat) st irs st',
    compileMembers we re rec id reader i ts st = .ok (irs, st') →
    Emits Q (.cases id i (i + ts.length)) st irs st' := by
  intro ts
  induction ts with
  | nil =>
    intro i st irs st' h
    simp only [compileMembers, Except.ok.injEq, Prod.mk.injEq] at h
    obtain ⟨rfl, rfl⟩ := h
    exact .casesNil
  | cons t ts ih =>
    intro i st irs st' h
    have hsz : i + (t :: ts).length = (i + 1) + ts.length := by simp; omega
    rw [hsz]
    obtain ⟨x, s, y, h1, h2, rfl⟩ := seqIR_ok h
    exact emits_member hrec h1 (ih _ _ _ _ h2)

theorem emits_union {we re rec} (hrec : RecEmits Q rec) {ts reader st irs st'}
    (h : compileUnion we re rec ts reader st = .ok (irs, st')) : Emits Q .code st irs st' := by
  obtain ⟨mid, hm, rfl⟩ := wrapIR_ok h
  have h1 := emits_members hrec _ _ _ _ _ hm
  rw [Nat.zero_add] at h1
  exact Emits.seq (a := [lit .read opLong]) (.lit rfl) (Emits.switch h1)

theorem emits_block {pre app reader inner st irs st'}
    (hinner : ∀ st irs st', inner st = .ok (irs, st') → Emits Q .code st irs st')
    (hpre : ∀ x ∈ pre, ∃ op arg, x = lit op arg ∧ op.isPlain = true) (happ : Op.isPlain app = true)
    (h : compileBlock pre app reader inner st = .ok (irs, st')) : Emits Q .code st irs st' := by
  obtain ⟨mid, hm, rfl⟩ := wrapIR_ok h
  have h1 := hinner _ _ _ hm
  cases reader
  · have h2 := Emits.block (emits_wrap pre [] h1 hpre (by simp))
    simpa using h2
  · have h2 := Emits.block (emits_wrap (pre ++ [lit app opUnused]) [lit .exit opUnused] h1 (by
      intro x hx
      rcases List.mem_append.1 hx with hx | hx
      · exact hpre x hx
      · simp only [List.mem_cons, List.not_mem_nil, or_false] at hx
        subst hx; exact ⟨_, _, rfl, happ⟩) (plain_exit _))
    simpa using h2

theorem emits_defaults : ∀ (l : List (Nat × Field)) st irs st', compileDefaults l st = .ok (irs, st') →
    Emits Q .code st irs st' := by
  intro l
  induction l with
  | nil =>
    intro st irs st' h
    simp only [compileDefaults, Except.ok.injEq, Prod.mk.injEq] at h
    obtain ⟨rfl, rfl⟩ := h
    exact .nil
  | cons x l ih =>
    obtain ⟨i, f⟩ := x
    intro st irs st' h
    unfold compileDefaults at h
    split at h
    · simp at h
    · obtain ⟨mid, hm, rfl⟩ := wrapIR_ok h
      have := Emits.seq (a := [lit .setDefault i]) (.lit rfl) (ih _ _ _ hm)
      simpa using this

theorem emits_fields {we re rec} (hrec : RecEmits Q rec) {reader} : ∀ (l : List Field) st irs st',
    compileFields we re rec reader l st = .ok (irs, st') → Emits Q .code st irs st' := by
  intro l
  induction l with
  | nil =>
    intro st irs st' h
    simp only [compileFields, Except.ok.injEq, Prod.mk.injEq] at h
    obtain ⟨rfl, rfl⟩ := h
    exact .nil
  | cons x l ih =>
    intro st irs st' h
    unfold compileFields at h
    split at h
    · obtain ⟨a, s, b, h1, h2, rfl⟩ := seqIR_ok h
      exact .seq (hrec _ _ _ _ _ h1) (ih _ _ _ h2)
    · split at h
      · obtain ⟨a, s, b, h1, h2, rfl⟩ := seqIR_ok h
        obtain ⟨mid, hm, rfl⟩ := wrapIR_ok h1
        refine .seq (emits_wrap _ _ (hrec _ _ _ _ _ hm) ?_ (plain_exit _)) (ih _ _ _ h2)
        intro y hy
        simp only [List.mem_cons, List.not_mem_nil, or_false] at hy
        subst hy; exact ⟨_, _, rfl, rfl⟩
      · simp at h

theorem emits_record {ord we re rec} (hrec : RecEmits Q rec) {k wfs reader st irs st'}
    (h : compileRecord ord we re rec k wfs reader st = .ok (irs, st')) : Emits Q .code st irs st' := by
  obtain ⟨a, s, b, h1, h2, rfl⟩ := seqIR_ok h
  exact .seq (emits_fields hrec _ _ _ _ h1) (emits_defaults _ _ _ _ h2)

theorem emits_call {ord we re rec} (hrec : RecEmits Q rec) {key pair wfs reader st irs st'}
    (hQ : ∀ k st body st', compileRecord ord we re rec k wfs reader st = .ok (body, st') →
      Q key pair body st')
    (h : compileCall ord we re rec key pair wfs reader st = .ok (irs, st')) : Emits Q .code st irs st' := by
  unfold compileCall at h
  split at h
  · rename_i pair' hp
    simp only [Except.ok.injEq, Prod.mk.injEq] at h
    obtain ⟨rfl, rfl⟩ := h
    exact .callOld hp (by simp_all)
  · rename_i hp
    split at h
    · simp at h
    · rename_i hb
      simp only [Except.ok.injEq, Prod.mk.injEq] at h
      obtain ⟨rfl, rfl⟩ := h
      exact .callNew hp (emits_record hrec hb) (hQ _ _ _ _ hb)

/-- The ghost pair describes the records `wfs` and `reader`. -/
def PairOf (we re : Env) (pair : Pair) (wfs : List Field) (reader : Option (List Field)) : Prop :=
  (∃ q wd, we.find q = some wd ∧ wd.name = pair.1 ∧ wd.kind = .record wfs) ∧
  ((pair.2 = none ∧ reader = none) ∨
    ∃ q' rd rfs, re.find q' = some rd ∧ pair.2 = some rd.name ∧ rd.kind = .record rfs ∧
      reader = some rfs)

/-- The body was produced by `compileRecord` for the records of the pair. -/
def BodyOf (ord : Orders) (lax : Bool) (we re : Env) : BodyPred := fun _ pair body st' =>
  ∃ m wfs reader k st, PairOf we re pair wfs reader ∧
    compileRecord ord we re (compileType ord lax we re m) k wfs reader st = .ok (body, st')

/-- `Q` holds of what `compileRecord` with `rec` produces. -/
def QOK (Q : BodyPred) (ord : Orders) (we re : Env) (rec : CState → Ty → Option Ty → CRes) : Prop :=
  ∀ key pair wfs reader k st body st', PairOf we re pair wfs reader →
    compileRecord ord we re rec k wfs reader st = .ok (body, st') → Q key pair body st'

theorem emits_def {ord we re rec} (hrec : RecEmits Q rec) (hQ : QOK Q ord we re rec) {q wd rd st irs st'}
    (hw : we.find q = some wd) (hr : ∀ d, rd = some d → ∃ q', re.find q' = some d)
    (h : compileDef ord we re rec wd rd st = .ok (irs, st')) : Emits Q .code st irs st' := by
  unfold compileDef at h
  split at h
  · rename_i wfs hk hk'
    refine emits_call hrec (fun k st body st' hb => hQ _ _ _ _ _ _ _ _ ?_ hb) h
    exact ⟨⟨q, wd, hw, rfl, hk⟩, .inl ⟨rfl, rfl⟩⟩
  · rename_i wfs rfs hk hk'
    refine emits_call hrec (fun k st body st' hb => hQ _ _ _ _ _ _ _ _ ?_ hb) h
    cases rd with
    | none => simp at hk'
    | some d =>
      obtain ⟨q', hq'⟩ := hr d rfl
      simp only [Option.map_some, Option.some.injEq] at hk'
      exact ⟨⟨q, wd, hw, rfl, hk⟩, .inr ⟨q', d, rfs, hq', rfl, hk', rfl⟩⟩
  · simp only [Except.ok.injEq, Prod.mk.injEq] at h
    obtain ⟨rfl, rfl⟩ := h; exact emits_fixed _ _ _
  · simp only [Except.ok.injEq, Prod.mk.injEq] at h
    obtain ⟨rfl, rfl⟩ := h; exact emits_fixed _ _ _
  · exact emits_enum h
  · exact emits_enum h
  · simp at h

theorem emits_ref {ord lax we re rec} (hrec : RecEmits Q rec) (hQ : QOK Q ord we re rec) {q q' st irs st'}
    (h : compileRef ord lax we re rec q q' st = .ok (irs, st')) : Emits Q .code st irs st' := by
  unfold compileRef at h
  split at h
  · simp at h
  · rename_i hw
    split at h
    · exact emits_def hrec hQ hw (by simp) h
    · split at h
      · simp at h
      · rename_i hr
        split at h
        · exact emits_def hrec hQ hw (fun d hd => by cases hd; exact ⟨_, hr⟩) h
        · simp at h

theorem emits_body {ord lax we re rec} (hrec : RecEmits Q rec) (hQ : QOK Q ord we re rec) {w r st irs st'}
    (h : compileBody ord lax we re rec w r st = .ok (irs, st')) : Emits Q .code st irs st' := by
  have hkey : ∀ x ∈ [lit .read opString], ∃ op arg, x = lit op arg ∧ op.isPlain = true := by
    intro y hy
    simp only [List.mem_cons, List.not_mem_nil, or_false] at hy
    subst hy; exact ⟨_, _, rfl, rfl⟩
  unfold compileBody at h
  cases w <;> simp only at h
  case null => simp only [Except.ok.injEq, Prod.mk.injEq] at h; obtain ⟨rfl, rfl⟩ := h; exact .nil
  case union => exact emits_union hrec h
  case array =>
    split at h
    · exact emits_block (fun _ _ _ hh => hrec _ _ _ _ _ hh) (by simp) rfl h
    · exact emits_block (fun _ _ _ hh => hrec _ _ _ _ _ hh) (by simp) rfl h
    · simp at h
  case map =>
    split at h
    · exact emits_block (fun _ _ _ hh => hrec _ _ _ _ _ hh) hkey rfl h
    · exact emits_block (fun _ _ _ hh => hrec _ _ _ _ _ hh) hkey rfl h
    · simp at h
  case ref =>
    split at h
    · exact emits_ref hrec hQ h
    · exact emits_ref hrec hQ h
    · simp at h
  all_goals
    simp only [Except.ok.injEq, Prod.mk.injEq] at h
    obtain ⟨rfl, rfl⟩ := h
    exact emits_prim _ _ _

/-- Whatever the compiler emits has the shape `Emits`. -/
theorem emits_type (ord : Orders) (lax : Bool) (we re : Env) :
    ∀ n, RecEmits (BodyOf ord lax we re) (compileType ord lax we re n) := by
  intro n
  induction n with
  | zero => intro st w r irs st' h; simp [compileType] at h
  | succ n ih =>
    intro st w r irs st' h
    unfold compileType at h
    split at h
    · split at h
      · obtain ⟨mid, hm, rfl⟩ := wrapIR_ok h
        exact emits_wrap _ _ (ih _ _ _ _ _ hm) (plain_unionEnter _) (plain_exit _)
      · simp at h
    · exact emits_body ih (fun key pair wfs reader k st body st' hp hb => ⟨n, wfs, reader, k, st, hp, hb⟩) h

/-! ### Consequences -/

/-- What later states keep of earlier ones. -/
structure Ext (a b : CState) : Prop where
  started : a.started <+: b.started
  bodies : a.bodies <+: b.bodies
  blocks : a.blocks ≤ b.blocks
  switches : a.switches <+: b.switches
  errors : a.errors <+: b.errors
  collision : a.collision = true → b.collision = true
  nullNarrow : a.nullNarrow = true → b.nullNarrow = true

theorem Ext.refl (a : CState) : Ext a a := ⟨List.prefix_rfl, List.prefix_rfl, Nat.le_refl _, List.prefix_rfl, List.prefix_rfl, fun h => h, fun h => h⟩

theorem Ext.trans {a b c : CState} (h : Ext a b) (g : Ext b c) : Ext a c :=
  ⟨h.started.trans g.started, h.bodies.trans g.bodies, Nat.le_trans h.blocks g.blocks,
   h.switches.trans g.switches, h.errors.trans g.errors,
   fun x => g.collision (h.collision x), fun x => g.nullNarrow (h.nullNarrow x)⟩

theorem ext_addError (st : CState) (m : Msg) : Ext st (st.addError m) :=
  { Ext.refl st with errors := List.prefix_append _ _ }

theorem ext_addSwitch (st : CState) (n : Nat) : Ext st (st.addSwitch n) :=
  { Ext.refl st with switches := List.prefix_append _ _ }

theorem ext_addBlock (st : CState) : Ext st st.addBlock :=
  { Ext.refl st with blocks := Nat.le_succ _ }

theorem Emits.ext {m st irs st'} (h : Emits Q m st irs st') : Ext st st' := by
  induction h with
  | nil => exact .refl _
  | lit => exact .refl _
  | halt => exact ext_addError _ _
  | seq _ _ h1 h2 => exact h1.trans h2
  | block _ h1 => exact (ext_addBlock _).trans h1
  | switch _ h1 => exact ((ext_addError _ _).trans (ext_addSwitch _ _)).trans h1
  | callOld _ hc => exact { Ext.refl _ with collision := hc }
  | callNew _ _ _ h1 =>
    have h2 : Ext _ _ := ⟨(List.prefix_append _ _).trans h1.started, h1.bodies, h1.blocks, h1.switches, h1.errors, h1.collision, h1.nullNarrow⟩
    exact { h2 with bodies := h2.bodies.trans (List.prefix_append _ _) }
  | casesNil => exact .refl _
  | case _ _ h1 h2 => exact h1.trans h2
  | caseTwice _ _ h1 h2 => exact h1.trans h2
  | caseLost _ _ h1 =>
    exact ⟨h1.started, h1.bodies, h1.blocks, h1.switches, h1.errors, h1.collision, fun _ => h1.nullNarrow rfl⟩


/-! ### the method table -/

theorem findMethod_some {α : Type} {l : List (MKey × α)} {k a} (h : findMethod l k = some a) : (k, a) ∈ l := by
  induction l with
  | nil => simp [findMethod] at h
  | cons x l ih =>
    obtain ⟨k', b⟩ := x
    simp only [findMethod] at h
    split at h
    · rename_i he; subst he; simp only [Option.some.injEq] at h; subst h; simp
    · simp [ih h]

theorem findMethod_none {α : Type} {l : List (MKey × α)} {k} (h : findMethod l k = none) :
    ∀ x ∈ l, x.1 ≠ k := by
  induction l with
  | nil => simp
  | cons x l ih =>
    obtain ⟨k', b⟩ := x
    simp only [findMethod] at h
    split at h
    · simp at h
    · intro y hy
      rcases List.mem_cons.1 hy with rfl | hy
      · assumption
      · exact ih h y hy

theorem findMethod_of_mem {α : Type} {l : List (MKey × α)} {k} (h : k ∈ l.map (·.1)) :
    ∃ a, findMethod l k = some a := by
  induction l with
  | nil => simp at h
  | cons x l ih =>
    obtain ⟨k', b⟩ := x
    simp only [findMethod]
    split
    · exact ⟨b, rfl⟩
    · rename_i hne
      apply ih
      simp only [List.map_cons, List.mem_cons] at h
      rcases h with h | h
      · exact absurd h.symm hne
      · exact h

theorem findMethod_unique {α : Type} {l : List (MKey × α)} {k a} (hn : (l.map (·.1)).Nodup)
    (h : (k, a) ∈ l) : findMethod l k = some a := by
  induction l with
  | nil => simp at h
  | cons x l ih =>
    obtain ⟨k', b⟩ := x
    simp only [List.map_cons, List.nodup_cons] at hn
    simp only [findMethod]
    rcases List.mem_cons.1 h with h | h
    · simp only [Prod.mk.injEq] at h; simp [h.1, h.2]
    · split
      · rename_i he; subst he
        exact absurd (List.mem_map.2 ⟨(k', a), h, rfl⟩) hn.1
      · exact ih hn.2 h

/-- Everything about the method table that a step keeps. -/
structure TableOK (Q : BodyPred) (st : CState) : Prop where
  nodup : (st.started.map (·.1)).Nodup
  body : ∀ k b, (k, b) ∈ st.bodies → ∃ pair st', (k, pair) ∈ st.started ∧ Q k pair b st' ∧ Ext st' st

theorem Ext.mem_started {a b : CState} (h : Ext a b) {x} (hx : x ∈ a.started) : x ∈ b.started :=
  h.started.subset hx

theorem Emits.table {m st irs st'} (h : Emits Q m st irs st') (ht : TableOK Q st) : TableOK Q st' := by
  have keep : ∀ {a b : CState}, Ext a b → a.started = b.started → a.bodies = b.bodies → TableOK Q a → TableOK Q b := by
    intro a b hx h1 h2 ht
    refine ⟨h1 ▸ ht.nodup, fun k bd hb => ?_⟩
    rw [← h2] at hb
    obtain ⟨pair, st', h3, h4, h5⟩ := ht.body k bd hb
    exact ⟨pair, st', h1 ▸ h3, h4, h5.trans hx⟩
  induction h with
  | nil => exact ht
  | lit => exact ht
  | halt => exact keep (ext_addError _ _) rfl rfl ht
  | seq _ _ h1 h2 => exact h2 (h1 ht)
  | block _ h1 => exact h1 (keep (ext_addBlock _) rfl rfl ht)
  | switch _ h1 => exact h1 (keep ((ext_addError _ _).trans (ext_addSwitch _ _)) rfl rfl ht)
  | @callOld st key pair c _ hc => exact keep (a := st) ⟨List.prefix_rfl, List.prefix_rfl, Nat.le_refl _, List.prefix_rfl, List.prefix_rfl, hc, fun h => h⟩ rfl rfl ht
  | @callNew st key pair body st' hf hb hq h1 =>
    have ht1 : TableOK Q { st with started := st.started ++ [(key, pair)] } := by
      refine ⟨?_, fun k bd hb => ?_⟩
      · simp only [List.map_append, List.map_cons, List.map_nil]
        rw [List.nodup_append]
        refine ⟨ht.nodup, by simp, ?_⟩
        intro a ha b hb
        simp only [List.mem_cons, List.not_mem_nil, or_false] at hb
        subst hb
        obtain ⟨x, hx, rfl⟩ := List.mem_map.1 ha
        exact findMethod_none hf x hx
      · obtain ⟨p, s, h3, h4, h5⟩ := ht.body k bd hb
        exact ⟨p, s, by simp [h3], h4, h5.trans { Ext.refl _ with started := List.prefix_append _ _ }⟩
    have ht2 := h1 ht1
    refine ⟨ht2.nodup, fun k bd hbd => ?_⟩
    have hx : Ext st' { st' with bodies := st'.bodies ++ [(key, body)] } :=
      { Ext.refl st' with bodies := List.prefix_append _ _ }
    rcases List.mem_append.1 hbd with hbd | hbd
    · obtain ⟨p, s, h3, h4, h5⟩ := ht2.body k bd hbd
      exact ⟨p, s, h3, h4, h5.trans hx⟩
    · simp only [List.mem_cons, List.not_mem_nil, or_false, Prod.mk.injEq] at hbd
      obtain ⟨rfl, rfl⟩ := hbd
      exact ⟨pair, st', hb.ext.started.subset (by simp), hq, hx⟩
  | casesNil => exact ht
  | case _ _ h1 h2 => exact h2 (h1 ht)
  | caseTwice _ _ h1 h2 => exact h2 (h1 ht)
  | @caseLost st _ _ _ _ _ _ _ _ _ h1 =>
    exact h1 (keep (a := st) ⟨List.prefix_rfl, List.prefix_rfl, Nat.le_refl _, List.prefix_rfl, List.prefix_rfl, fun h => h, fun _ => rfl⟩ rfl rfl ht)

/-- Methods started and methods finished: a step finishes what it starts. -/
theorem Emits.finishes {m st irs st'} (h : Emits Q m st irs st') :
    ∃ S B, st'.started = st.started ++ S ∧ st'.bodies = st.bodies ++ B ∧
      (S.map (·.1)).Perm (B.map (·.1)) := by
  induction h with
  | nil => exact ⟨[], [], by simp, by simp, by simp⟩
  | lit => exact ⟨[], [], by simp, by simp, by simp⟩
  | halt => exact ⟨[], [], by simp [CState.addError], by simp [CState.addError], by simp⟩
  | seq _ _ h1 h2 =>
    obtain ⟨S1, B1, a1, b1, c1⟩ := h1
    obtain ⟨S2, B2, a2, b2, c2⟩ := h2
    exact ⟨S1 ++ S2, B1 ++ B2, by rw [a2, a1, List.append_assoc], by rw [b2, b1, List.append_assoc],
      by simpa using c1.append c2⟩
  | block _ h1 => exact h1
  | switch _ h1 => exact h1
  | callOld => exact ⟨[], [], by simp, by simp, by simp⟩
  | @callNew st key pair body st' hf hb hq h1 =>
    obtain ⟨S1, B1, a1, b1, c1⟩ := h1
    refine ⟨(key, pair) :: S1, B1 ++ [(key, body)], by simp [a1], by simp [b1], ?_⟩
    simp only [List.map_cons, List.map_append, List.map_nil]
    exact (c1.cons key).trans (List.perm_append_singleton _ _).symm
  | casesNil => exact ⟨[], [], by simp, by simp, by simp⟩
  | case _ _ h1 h2 =>
    obtain ⟨S1, B1, a1, b1, c1⟩ := h1
    obtain ⟨S2, B2, a2, b2, c2⟩ := h2
    exact ⟨S1 ++ S2, B1 ++ B2, by rw [a2, a1, List.append_assoc], by rw [b2, b1, List.append_assoc],
      by simpa using c1.append c2⟩
  | caseTwice _ _ h1 h2 =>
    obtain ⟨S1, B1, a1, b1, c1⟩ := h1
    obtain ⟨S2, B2, a2, b2, c2⟩ := h2
    exact ⟨S1 ++ S2, B1 ++ B2, by rw [a2, a1, List.append_assoc], by rw [b2, b1, List.append_assoc],
      by simpa using c1.append c2⟩
  | caseLost _ _ h1 => exact h1

/-- Calls are to methods that were started. -/
theorem Emits.calls {m st irs st'} (h : Emits Q m st irs st')
    (hb : ∀ x ∈ st.bodies, ∀ k, IR.call k ∈ x.2 → k ∈ st.started.map (·.1)) :
    (∀ k, IR.call k ∈ irs → k ∈ st'.started.map (·.1)) ∧
    (∀ x ∈ st'.bodies, ∀ k, IR.call k ∈ x.2 → k ∈ st'.started.map (·.1)) := by
  have mono : ∀ {a b : CState} {k : MKey}, Ext a b → k ∈ a.started.map (·.1) → k ∈ b.started.map (·.1) := by
    intro a b k hx hk
    obtain ⟨x, h1, h2⟩ := List.mem_map.1 hk
    exact List.mem_map.2 ⟨x, hx.started.subset h1, h2⟩
  induction h with
  | nil => exact ⟨by simp, hb⟩
  | lit => exact ⟨by simp [Verif.lit], hb⟩
  | halt => exact ⟨by simp [Verif.lit], hb⟩
  | seq h1 h2 i1 i2 =>
    obtain ⟨a1, b1⟩ := i1 hb
    obtain ⟨a2, b2⟩ := i2 b1
    refine ⟨fun k hm => ?_, b2⟩
    rcases List.mem_append.1 hm with hm | hm
    · exact mono h2.ext (a1 _ hm)
    · exact a2 _ hm
  | block h1 i1 =>
    obtain ⟨a1, b1⟩ := i1 hb
    refine ⟨fun k hm => ?_, b1⟩
    simp at hm
    simpa using a1 _ hm
  | switch h1 i1 =>
    obtain ⟨a1, b1⟩ := i1 hb
    refine ⟨fun k hm => ?_, b1⟩
    simp at hm
    simpa using a1 _ hm
  | @callOld st key pair c hf hc =>
    refine ⟨fun k hm => ?_, hb⟩
    simp only [List.mem_cons, List.not_mem_nil, or_false, IR.call.injEq] at hm
    subst hm
    exact List.mem_map.2 ⟨_, findMethod_some hf, rfl⟩
  | @callNew st key pair body st' hf h1 hq i1 =>
    obtain ⟨a1, b1⟩ := i1 (fun x hx k hk => by
      have := hb x hx k hk
      simp only [List.map_append, List.mem_append]; exact .inl this)
    refine ⟨fun k hm => ?_, fun x hx => ?_⟩
    · simp only [List.mem_cons, List.not_mem_nil, or_false, IR.call.injEq] at hm
      subst hm
      exact List.mem_map.2 ⟨(k, pair), h1.ext.started.subset (by simp), rfl⟩
    · rcases List.mem_append.1 hx with hx | hx
      · exact b1 x hx
      · simp only [List.mem_cons, List.not_mem_nil, or_false] at hx
        subst hx; exact a1
  | casesNil => exact ⟨by simp, hb⟩
  | case h1 h2 i1 i2 =>
    obtain ⟨a1, b1⟩ := i1 hb
    obtain ⟨a2, b2⟩ := i2 b1
    refine ⟨fun k hm => ?_, b2⟩
    simp only [List.mem_cons, reduceCtorEq, false_or, List.mem_append] at hm
    rcases hm with hm | hm
    · exact mono h2.ext (a1 _ hm)
    · exact a2 _ hm
  | caseTwice h1 h2 i1 i2 =>
    obtain ⟨a1, b1⟩ := i1 hb
    obtain ⟨a2, b2⟩ := i2 b1
    refine ⟨fun k hm => ?_, b2⟩
    simp only [List.mem_cons, reduceCtorEq, false_or, List.mem_append] at hm
    rcases hm with hm | hm
    · exact mono h2.ext (a1 _ hm)
    · exact a2 _ hm
  | caseLost hp h1 i1 =>
    obtain ⟨a1, b1⟩ := i1 hb
    refine ⟨fun k hm => ?_, b1⟩
    simp only [Verif.lit, List.mem_cons, reduceCtorEq, false_or] at hm
    exact a1 _ hm
end
end Verif
