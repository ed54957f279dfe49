import Verif.Compiler.Mono
/-
Conditions on the schemas under which the ghost flags `collision` and `nullNarrow` of
`CState` stay unset, so that `run_compiled` applies.
-/
set_option linter.unusedSimpArgs false
set_option linter.unusedVariables false
namespace Verif

mutual
/-- No union is a member of a union (which Avro forbids). -/
def Ty.tidy : Ty → Bool
  | .array t => t.tidy
  | .map t => t.tidy
  | .union ts => Ty.tidyMembers ts
  | _ => true
def Ty.tidyMembers : List Ty → Bool
  | [] => true
  | t :: ts => (!t.isUnion && t.tidy) && Ty.tidyMembers ts
end

/-- All record fields have tidy types. -/
def TidyFields (env : Env) : Prop :=
  ∀ q d fs f, env.find q = some d → d.kind = .record fs → f ∈ fs → f.ty.tidy = true

theorem tidyMembers_mem {t : Ty} : ∀ {ts : List Ty}, Ty.tidyMembers ts = true → t ∈ ts →
    t.isUnion = false ∧ t.tidy = true := by
  intro ts
  induction ts with
  | nil => intro _ h; simp at h
  | cons u ts ih =>
    intro h hm
    simp only [Ty.tidyMembers, Bool.and_eq_true, Bool.not_eq_true'] at h
    rcases List.mem_cons.1 hm with rfl | hm
    · exact h.1
    · exact ih h.2 hm

/-! ### Null against unions with null

The compiler does not get two combinations right: null read as a union (the union is left with
the tag of its null member, it does not become nil), and a union with null read as null (the
case of null is lost). `NullsAgree` says that they do not occur among the pairs of types that
are matched when data of type `w` is read as type `r`. -/

/-- The pairs that are matched when `w` is matched with `r`. -/
inductive Next (we re : Env) : Ty → Ty → Ty → Ty → Prop
  | item {w r} : Next we re (.array w) (.array r) w r
  | value {w r} : Next we re (.map w) (.map r) w r
  | into {w r rs j} : w.isUnion = false → findIdx (w.readableBy we re) 0 rs = some (j, r) → Next we re w (.union rs) w r
  | field {q q' wd rd wfs rfs wf i rf} : we.find q = some wd → re.find q' = some rd → wd.kind = .record wfs →
      rd.kind = .record rfs → wf ∈ wfs → fieldByName rfs wf.name = some (i, rf) →
      wf.ty.readableBy we re rf.ty = true → Next we re (.ref q) (.ref q') wf.ty rf.ty
  | named {ts t rs j r} : t ∈ ts → t.isNull = false → findIdx (fun r => r.goName re == t.goName we) 0 rs = some (j, r) →
      Next we re (.union ts) (.union rs) t r
  | first {ts t rs j r} : t ∈ ts → t.isNull = false → findIdx (fun r => r.goName re == t.goName we) 0 rs = none →
      findIdx (t.readableBy we re) 0 rs = some (j, r) → Next we re (.union ts) (.union rs) t r
  | single {ts t r} : t ∈ ts → t.isNull = false → r.isUnion = false → t.readableBy we re r = true →
      Next we re (.union ts) r t r

/-- The pairs of types that are matched, from a pair on. -/
inductive Meets (we re : Env) : Ty → Ty → Ty → Ty → Prop
  | here {w r} : Meets we re w r w r
  | step {w r w1 r1 w2 r2} : Next we re w r w1 r1 → Meets we re w1 r1 w2 r2 → Meets we re w r w2 r2

/-- Null read as something else, or a union with null read as null. -/
def NullClash (w r : Ty) : Prop := (w = .null ∧ r ≠ .null) ∨ (∃ ts, w = .union ts ∧ .null ∈ ts ∧ r = .null)

def NullsAgree (we re : Env) (w r : Ty) : Prop := ∀ w' r', Meets we re w r w' r' → ¬ NullClash w' r'

theorem NullsAgree.next {we re : Env} {w r w' r' : Ty} (h : NullsAgree we re w r) (hn : Next we re w r w' r') :
    NullsAgree we re w' r' := fun w2 r2 hm => h w2 r2 (.step hn hm)

theorem NullsAgree.null {we re : Env} {r : Ty} (h : NullsAgree we re .null r) : r = .null := by
  by_cases hr : r = .null
  · exact hr
  · exact absurd (.inl ⟨rfl, hr⟩) (h _ _ .here)

theorem NullsAgree.union {we re : Env} {ts : List Ty} {r : Ty} (h : NullsAgree we re (.union ts) r) (hm : .null ∈ ts) :
    r ≠ .null := fun hr => h _ _ .here (.inr ⟨ts, rfl, hm, hr⟩)

/-- No two records of the writer have the same Go name. -/
def GoNamesDistinct (env : Env) : Prop :=
  ∀ q q' d d' fs fs', env.find q = some d → env.find q' = some d' → d.kind = .record fs →
    d'.kind = .record fs' → d.goName = d'.goName → d.name = d'.name

/-- A record of the writer is readable as one record of the reader at most. -/
def OneReader (we re : Env) : Prop :=
  ∀ q d q1 q2 r1 r2 fs fs1 fs2, we.find q = some d → re.find q1 = some r1 → re.find q2 = some r2 →
    d.kind = .record fs → r1.kind = .record fs1 → r2.kind = .record fs2 →
    d.readableBy r1 = true → d.readableBy r2 = true → r1.name = r2.name

/-- The names of a started method. -/
def KeyOK (we re : Env) (x : MKey × Pair) : Prop :=
  ∃ q wd wfs, we.find q = some wd ∧ wd.kind = .record wfs ∧ x.1.2 = wd.goName ∧ x.2.1 = wd.name ∧
    ((x.1.1 = false ∧ x.2.2 = none) ∨
     ∃ q' rd rfs, x.1.1 = true ∧ x.2.2 = some rd.name ∧ re.find q' = some rd ∧ rd.kind = .record rfs ∧
       wd.readableBy rd = true)

structure CState.Clean (we re : Env) (st : CState) : Prop where
  narrow : st.nullNarrow = false
  collision : st.collision = false
  keys : ∀ x ∈ st.started, KeyOK we re x

/-- Pairs of types met while compiling. -/
def TidyPair (we re : Env) (w : Ty) (r : Option Ty) : Prop :=
  w.tidy = true ∧ ∀ r', r = some r' → r'.tidy = true ∧ NullsAgree we re w r'

section
variable {ord : Orders} {we re : Env} {rec : CState → Ty → Option Ty → CRes}

def RecClean (we re : Env) (rec : CState → Ty → Option Ty → CRes) : Prop :=
  ∀ st w r irs st', TidyPair we re w r → st.Clean we re → rec st w r = .ok (irs, st') → st'.Clean we re

theorem CState.Clean.of_eq {a b : CState} (h : a.Clean we re) (h1 : b.nullNarrow = a.nullNarrow)
    (h2 : b.collision = a.collision) (h3 : b.started = a.started) : b.Clean we re :=
  ⟨h1 ▸ h.narrow, h2 ▸ h.collision, h3 ▸ h.keys⟩

theorem clean_symbols (id : Nat) (rs : List Str) (d : Str) : ∀ (ss : List Str) (i : Nat) st irs st',
    st.Clean we re → compileSymbols id rs d i ss st = .ok (irs, st') → st'.Clean we re := by
  intro ss
  induction ss with
  | nil =>
    intro i st irs st' hc h
    simp only [compileSymbols, Except.ok.injEq, Prod.mk.injEq] at h
    exact h.2 ▸ hc
  | cons s ss ih =>
    intro i st irs st' hc h
    simp only [compileSymbols] at h
    split at h
    · obtain ⟨mid, hm, _⟩ := wrapIR_ok h; exact ih _ _ _ _ hc hm
    · split at h
      · split at h
        · simp at h
        · obtain ⟨mid, hm, _⟩ := wrapIR_ok h; exact ih _ _ _ _ hc hm
      · obtain ⟨mid, hm, _⟩ := wrapIR_ok h
        refine ih _ _ _ _ ?_ hm; exact hc.of_eq rfl rfl rfl

theorem clean_enum {ws reader st irs st'} (hc : st.Clean we re)
    (h : compileEnum ws reader st = .ok (irs, st')) : st'.Clean we re := by
  unfold compileEnum at h
  split at h
  · simp only [Except.ok.injEq, Prod.mk.injEq] at h; exact h.2 ▸ hc
  · obtain ⟨mid, hm, _⟩ := wrapIR_ok h
    refine clean_symbols _ _ _ _ _ _ _ _ ?_ hm; exact hc.of_eq rfl rfl rfl

theorem clean_defaults : ∀ (l : List (Nat × Field)) st irs st', st.Clean we re →
    compileDefaults l st = .ok (irs, st') → st'.Clean we re := by
  intro l
  induction l with
  | nil =>
    intro st irs st' hc h
    simp only [compileDefaults, Except.ok.injEq, Prod.mk.injEq] at h
    exact h.2 ▸ hc
  | cons x l ih =>
    obtain ⟨i, f⟩ := x
    intro st irs st' hc h
    simp only [compileDefaults] at h
    split at h
    · simp at h
    · obtain ⟨mid, hm, _⟩ := wrapIR_ok h; exact ih _ _ _ hc hm

theorem clean_member (hrec : RecClean we re rec) {id i t ts reader st irs st'} (hc : st.Clean we re)
    (hm : t ∈ ts) (ht : t.isUnion = false ∧ t.tidy = true)
    (hr : ∀ r', reader = some r' → r'.tidy = true ∧ NullsAgree we re (.union ts) r')
    (h : compileMember we re rec id i t reader st = .ok (irs, st')) : st'.Clean we re := by
  have hmem : ∀ {p : Ty → Bool} {j r rs}, Ty.tidy (.union rs) = true → findIdx p 0 rs = some (j, r) →
      NullsAgree we re t r → TidyPair we re t (some r) := by
    intro p j r rs hu hf hn
    refine ⟨ht.2, ?_⟩
    intro r' he
    simp only [Option.some.injEq] at he
    subst he
    simp only [Ty.tidy] at hu
    exact ⟨(tidyMembers_mem hu (findIdx_mem hf)).2, hn⟩
  unfold compileMember at h
  split at h
  · obtain ⟨mid, hm, _⟩ := wrapIR_ok h
    exact hrec _ _ _ _ _ ⟨ht.2, by simp⟩ hc hm
  · split at h
    · rename_i hf
      split at h
      · simp only [Except.ok.injEq, Prod.mk.injEq] at h; exact h.2 ▸ hc
      · rename_i hnn
        obtain ⟨mid, hmm, _⟩ := wrapIR_ok h
        exact hrec _ _ _ _ _ (hmem (hr _ rfl).1 hf ((hr _ rfl).2.next (.named hm (by simpa using hnn) hf))) hc hmm
    · rename_i hf0
      split at h
      · rename_i hf
        split at h
        · simp only [Except.ok.injEq, Prod.mk.injEq] at h; exact h.2 ▸ hc
        · rename_i hnn
          obtain ⟨mid, hmm, _⟩ := wrapIR_ok h
          exact hrec _ _ _ _ _ (hmem (hr _ rfl).1 hf ((hr _ rfl).2.next (.first hm (by simpa using hnn) hf0 hf))) hc hmm
      · simp only [Except.ok.injEq, Prod.mk.injEq] at h
        exact h.2 ▸ hc.of_eq rfl rfl rfl
  · rename_i r hnot
    split at h
    · rename_i hread
      have hru : r.isUnion = false := by
        cases r <;> first | rfl | exact absurd rfl (hnot _)
      split at h
      · rename_i hnull
        exfalso
        cases t <;> simp [Ty.isNull] at hnull
        cases r <;> simp [Ty.readableBy, anyBranch, Ty.readsNull] at hread
        · exact (hr _ rfl).2.union hm rfl
        · exact hnot _ rfl
      · rename_i hnn
        obtain ⟨mid, hmm, _⟩ := wrapIR_ok h
        exact hrec _ _ _ _ _ ⟨ht.2, fun r' he => ⟨(hr r' he).1, by
          cases he; exact (hr _ rfl).2.next (.single hm (by simpa using hnn) hru hread)⟩⟩ hc hmm
    · simp only [Except.ok.injEq, Prod.mk.injEq] at h
      exact h.2 ▸ hc.of_eq rfl rfl rfl

theorem clean_members (hrec : RecClean we re rec) {id reader all}
    (hr : ∀ r', reader = some r' → r'.tidy = true ∧ NullsAgree we re (.union all) r') : ∀ (ts : List Ty) (i : Nat) st irs st',
    (∀ t ∈ ts, t ∈ all) → Ty.tidyMembers ts = true → st.Clean we re →
    compileMembers we re rec id reader i ts st = .ok (irs, st') → st'.Clean we re := by
  intro ts
  induction ts with
  | nil =>
    intro i st irs st' _ _ hc h
    simp only [compileMembers, Except.ok.injEq, Prod.mk.injEq] at h
    exact h.2 ▸ hc
  | cons t ts ih =>
    intro i st irs st' hall ht hc h
    obtain ⟨x, s, y, h1, h2, _⟩ := seqIR_ok h
    have ht' : Ty.tidyMembers ts = true := by
      simp only [Ty.tidyMembers, Bool.and_eq_true] at ht; exact ht.2
    exact ih _ _ _ _ (fun u hu => hall u (by simp [hu])) ht'
      (clean_member hrec hc (hall t (by simp)) (tidyMembers_mem ht (by simp)) hr h1) h2

theorem clean_fields (hrec : RecClean we re rec) {reader : Option (List Field)}
    (hr : ∀ rfs, reader = some rfs → ∀ f ∈ rfs, f.ty.tidy = true) : ∀ (ws : List Field) st irs st',
    (∀ rfs, reader = some rfs → ∀ wf ∈ ws, ∀ i rf, fieldByName rfs wf.name = some (i, rf) →
      wf.ty.readableBy we re rf.ty = true → NullsAgree we re wf.ty rf.ty) →
    (∀ f ∈ ws, f.ty.tidy = true) → st.Clean we re →
    compileFields we re rec reader ws st = .ok (irs, st') → st'.Clean we re := by
  intro ws
  induction ws with
  | nil =>
    intro st irs st' _ _ hc h
    simp only [compileFields, Except.ok.injEq, Prod.mk.injEq] at h
    exact h.2 ▸ hc
  | cons w ws ih =>
    intro st irs st' hn hw hc h
    have hw' : ∀ f ∈ ws, f.ty.tidy = true := fun f hf => hw f (by simp [hf])
    have hn' := fun rfs he wf hwf => hn rfs he wf (List.mem_cons_of_mem w hwf)
    simp only [compileFields] at h
    split at h
    · obtain ⟨x, s, y, h1, h2, _⟩ := seqIR_ok h
      exact ih _ _ _ hn' hw' (hrec _ _ _ _ _ ⟨hw w (by simp), by simp⟩ hc h1) h2
    · rename_i i rf hf
      split at h
      · rename_i hread
        obtain ⟨x, s, y, h1, h2, _⟩ := seqIR_ok h
        obtain ⟨mid, hm, _⟩ := wrapIR_ok h1
        refine ih _ _ _ hn' hw' (hrec _ _ _ _ _ ⟨hw w (by simp), ?_⟩ hc hm) h2
        intro r' he
        simp only [Option.some.injEq] at he
        subst he
        cases reader with
        | none => simp at hf
        | some rfs => exact ⟨hr rfs rfl rf (fieldByName_mem hf), hn rfs rfl w (by simp) i rf hf hread⟩
      · simp at h

theorem clean_call (hrec : RecClean we re rec) {key pair wfs reader st irs st'}
    (hw : ∀ f ∈ wfs, f.ty.tidy = true) (hr : ∀ rfs, reader = some rfs → ∀ f ∈ rfs, f.ty.tidy = true)
    (hn : ∀ rfs, reader = some rfs → ∀ wf ∈ wfs, ∀ i rf, fieldByName rfs wf.name = some (i, rf) →
      wf.ty.readableBy we re rf.ty = true → NullsAgree we re wf.ty rf.ty)
    (hk : KeyOK we re (key, pair)) (hu : ∀ p, KeyOK we re (key, p) → p = pair) (hc : st.Clean we re)
    (h : compileCall ord we re rec key pair wfs reader st = .ok (irs, st')) : st'.Clean we re := by
  unfold compileCall at h
  split at h
  · rename_i pair' hf
    simp only [Except.ok.injEq, Prod.mk.injEq] at h
    have := hu _ (hc.keys _ (findMethod_some hf))
    subst this
    rw [← h.2]
    exact hc.of_eq rfl (by simp) rfl
  · split at h
    · simp at h
    · rename_i body s hb
      simp only [Except.ok.injEq, Prod.mk.injEq] at h
      rw [← h.2]
      obtain ⟨x, s1, y, h1, h2, _⟩ := seqIR_ok hb
      have c1 := clean_fields hrec hr _ _ _ _ hn hw (show CState.Clean we re { st with started := st.started ++ [(key, pair)] } from
        ⟨hc.narrow, hc.collision, by
          intro x hx
          rcases List.mem_append.1 hx with hx | hx
          · exact hc.keys x hx
          · simp only [List.mem_cons, List.not_mem_nil, or_false] at hx; exact hx ▸ hk⟩) h1
      exact (clean_defaults _ _ _ _ c1 h2).of_eq rfl rfl rfl

theorem clean_ref (hg : GoNamesDistinct we) (ho : OneReader we re) (hN : NamesOK we)
    (htw : TidyFields we) (htr : TidyFields re)
    (hrec : RecClean we re rec) {q q' st irs st'} (hc : st.Clean we re)
    (hna : ∀ p, q' = some p → NullsAgree we re (.ref q) (.ref p))
    (h : compileRef ord false we re rec q q' st = .ok (irs, st')) : st'.Clean we re := by
  have huniq : ∀ {q wd wfs}, we.find q = some wd → wd.kind = .record wfs → ∀ p,
      KeyOK we re ((false, wd.goName), p) → p = (wd.name, none) := by
    intro q wd wfs hq hk p hp
    obtain ⟨q2, wd2, wfs2, a1, a2, a3, a4, a5⟩ := hp
    have := hg _ _ _ _ _ _ hq a1 hk a2 a3
    rcases a5 with ⟨_, a5⟩ | ⟨_, _, _, a5, _⟩
    · obtain ⟨p1, p2⟩ := p; simp_all
    · simp at a5
  have huniq2 : ∀ {q wd wfs q' rd rfs}, we.find q = some wd → wd.kind = .record wfs →
      re.find q' = some rd → rd.kind = .record rfs → wd.readableBy rd = true → ∀ p,
      KeyOK we re ((true, wd.goName), p) → p = (wd.name, some rd.name) := by
    intro q wd wfs q' rd rfs hq hk hq' hk' hrd p hp
    obtain ⟨q2, wd2, wfs2, a1, a2, a3, a4, a5⟩ := hp
    have hn := hg _ _ _ _ _ _ hq a1 hk a2 a3
    have hd := hN _ _ _ _ hq a1 hn
    subst hd
    rcases a5 with ⟨a5, _⟩ | ⟨q3, rd3, rfs3, a5, a6, a7, a8, a9⟩
    · simp at a5
    · have := ho _ _ _ _ _ _ _ _ _ hq hq' a7 hk hk' a8 hrd a9
      obtain ⟨p1, p2⟩ := p; simp_all
  unfold compileRef at h
  split at h
  · simp at h
  · rename_i wd hq
    split at h
    · unfold compileDef at h
      split at h
      · rename_i wfs hk _
        exact clean_call hrec (fun f hf => htw _ _ _ _ hq hk hf) (by simp) (by simp)
          ⟨q, wd, wfs, hq, hk, rfl, rfl, .inl ⟨rfl, rfl⟩⟩ (huniq hq hk) hc h
      · rename_i hk'; simp at hk'
      · simp only [Except.ok.injEq, Prod.mk.injEq] at h; exact h.2 ▸ hc
      · simp only [Except.ok.injEq, Prod.mk.injEq] at h; exact h.2 ▸ hc
      · exact clean_enum hc h
      · exact clean_enum hc h
      · simp at h
    · split at h
      · simp at h
      · rename_i _ q' _ rd hq'
        split at h
        · rename_i hrd
          simp only [Bool.false_or] at hrd
          unfold compileDef at h
          split at h
          · rename_i hk'; simp at hk'
          · rename_i wfs rfs hk hk'
            simp only [Option.map_some, Option.some.injEq] at hk'
            exact clean_call hrec (fun f hf => htw _ _ _ _ hq hk hf)
              (by intro rfs2 he; simp only [Option.some.injEq] at he; subst he
                  exact fun f hf => htr _ _ _ _ hq' hk' hf)
              (by intro rfs2 he wf hwf i rf hf hread
                  simp only [Option.some.injEq] at he; subst he
                  exact (hna _ rfl).next (.field hq hq' hk hk' hwf hf hread))
              ⟨q, wd, wfs, hq, hk, rfl, rfl, .inr ⟨q', rd, rfs, rfl, rfl, hq', hk', hrd⟩⟩
              (huniq2 hq hk hq' hk' hrd) hc h
          · simp only [Except.ok.injEq, Prod.mk.injEq] at h; exact h.2 ▸ hc
          · simp only [Except.ok.injEq, Prod.mk.injEq] at h; exact h.2 ▸ hc
          · exact clean_enum hc h
          · exact clean_enum hc h
          · simp at h
        · simp at h

theorem clean_type (hg : GoNamesDistinct we) (ho : OneReader we re) (hN : NamesOK we)
    (htw : TidyFields we) (htr : TidyFields re) : ∀ n, RecClean we re (compileType ord false we re n) := by
  intro n
  induction n with
  | zero => intro st w r irs st' _ _ h; simp [compileType] at h
  | succ n ih =>
    intro st w r irs st' hp hc h
    rw [compileType_succ] at h
    split at h
    · rename_i rs hu
      split at h
      · rename_i i r' hf
        obtain ⟨mid, hm, _⟩ := wrapIR_ok h
        refine ih _ _ _ _ _ ⟨hp.1, ?_⟩ hc hm
        intro r2 he
        simp only [Option.some.injEq] at he
        subst he
        have h1 := hp.2 _ rfl
        exact ⟨(tidyMembers_mem (by simpa only [Ty.tidy] using h1.1) (findIdx_mem hf)).2, h1.2.next (.into hu hf)⟩
      · simp at h
    · rename_i hnx
      have hblk : ∀ {pre app b wi r'}, TidyPair we re wi r' →
          compileBlock pre app b (fun st => compileType ord false we re n st wi r') st = .ok (irs, st') →
          st'.Clean we re := by
        intro pre app b wi r' hp' h
        obtain ⟨mid, hm, _⟩ := wrapIR_ok h
        refine ih _ _ _ _ _ hp' ?_ hm; exact hc.of_eq rfl rfl rfl
      unfold compileBody at h
      cases w <;> simp only at h
      case null => simp only [Except.ok.injEq, Prod.mk.injEq] at h; exact h.2 ▸ hc
      case bool => simp only [Except.ok.injEq, Prod.mk.injEq] at h; exact h.2 ▸ hc
      case int => simp only [Except.ok.injEq, Prod.mk.injEq] at h; exact h.2 ▸ hc
      case long => simp only [Except.ok.injEq, Prod.mk.injEq] at h; exact h.2 ▸ hc
      case float => simp only [Except.ok.injEq, Prod.mk.injEq] at h; exact h.2 ▸ hc
      case double => simp only [Except.ok.injEq, Prod.mk.injEq] at h; exact h.2 ▸ hc
      case bytes => simp only [Except.ok.injEq, Prod.mk.injEq] at h; exact h.2 ▸ hc
      case string => simp only [Except.ok.injEq, Prod.mk.injEq] at h; exact h.2 ▸ hc
      case union ts =>
        obtain ⟨mid, hm, _⟩ := wrapIR_ok h
        refine clean_members ih (fun r' he => hp.2 r' he) _ _ _ _ _ (fun _ h => h) (by simpa [Ty.tidy] using hp.1) ?_ hm
        exact hc.of_eq rfl rfl rfl
      case array wi =>
        have h1 : wi.tidy = true := by simpa [Ty.tidy] using hp.1
        split at h
        · exact hblk ⟨h1, by simp⟩ h
        · rename_i ri
          refine hblk ⟨h1, ?_⟩ h
          intro r' he
          simp only [Option.some.injEq] at he
          subst he
          exact ⟨by simpa [Ty.tidy] using (hp.2 _ rfl).1, (hp.2 _ rfl).2.next .item⟩
        · simp at h
      case map wi =>
        have h1 : wi.tidy = true := by simpa [Ty.tidy] using hp.1
        split at h
        · exact hblk ⟨h1, by simp⟩ h
        · rename_i ri
          refine hblk ⟨h1, ?_⟩ h
          intro r' he
          simp only [Option.some.injEq] at he
          subst he
          exact ⟨by simpa [Ty.tidy] using (hp.2 _ rfl).1, (hp.2 _ rfl).2.next .value⟩
        · simp at h
      case ref q =>
        split at h
        · exact clean_ref hg ho hN htw htr ih hc (by simp) h
        · exact clean_ref hg ho hN htw htr ih hc (fun p he => by cases he; exact (hp.2 _ rfl).2) h
        · simp at h
end

/-- Schemas for which the compiler is not led astray: every name found in a table is
consistent, sizes are not negative, unions do not nest, null and unions with null are not
matched with each other the wrong way (`NullsAgree`), no two writer records share a Go name, and no writer record is readable as two
reader records. -/
structure Sound (w r : Schema) : Prop where
  namesW : NamesOK w.env
  namesR : NamesOK r.env
  sizes : SizesOK w.env
  tidyW : TidyFields w.env
  tidyR : TidyFields r.env
  rootW : w.root.tidy = true
  rootR : r.root.tidy = true
  nulls : NullsAgree w.env r.env w.root r.root
  distinct : GoNamesDistinct w.env
  one : OneReader w.env r.env

theorem Sound.clean {ord : Orders} {w r : Schema} (h : Sound w r) {n main st}
    (hc : compileType ord false w.env r.env n {} w.root (some r.root) = .ok (main, st)) :
    st.collision = false ∧ st.nullNarrow = false := by
  have := clean_type h.distinct h.one h.namesW h.tidyW h.tidyR n _ _ _ _ _
    ⟨h.rootW, fun r' he => by simp only [Option.some.injEq] at he; subst he; exact ⟨h.rootR, h.nulls⟩⟩
    ⟨rfl, rfl, by intro x hx; simp at hx⟩ hc
  exact ⟨this.collision, this.narrow⟩
end Verif
