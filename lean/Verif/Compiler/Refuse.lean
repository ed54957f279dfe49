import Verif.Spec.Refused
import Verif.Gen.PathProof
/-
`Compile` returns an error exactly for the schemas that `Refused` (Spec/Refused) describes.
-/
namespace Verif
set_option linter.unusedSimpArgs false
set_option linter.unusedVariables false

theorem wrapIR_error {pre post : List IR} {x : CRes} {e} (h : wrapIR pre post x = .error e) : x = .error e := by
  cases x with
  | error e' => simpa [wrapIR] using h
  | ok y => obtain ⟨a, b⟩ := y; simp [wrapIR] at h

theorem seqIR_error {a : CRes} {b : CState → CRes} {e} (h : seqIR a b = .error e) :
    a = .error e ∨ ∃ x s, a = .ok (x, s) ∧ b s = .error e := by
  cases a with
  | error e' => left; simpa [seqIR] using h
  | ok z =>
    obtain ⟨x, s⟩ := z
    exact .inr ⟨x, s, rfl, wrapIR_error (show wrapIR x [] (b s) = _ from h)⟩

theorem answers_of {n : Str} : ∀ {rfs : List Field} {k j : Nat} {rf : Field}, fieldByNameFrom k rfs n = some (j, rf) →
    ∃ i, j = k + i ∧ Answers rfs n i rf
  | [], k, j, rf, h => by cases h
  | f :: fs, k, j, rf, h => by
    simp only [fieldByNameFrom] at h
    split at h
    · rename_i hf
      cases h
      exact ⟨0, rfl, rfl, hf, fun i g hi _ => absurd hi (Nat.not_lt_zero _)⟩
    · rename_i hf
      obtain ⟨i, rfl, h1, h2, h3⟩ := answers_of h
      refine ⟨i + 1, by omega, h1, h2, fun i' g hi hg => ?_⟩
      cases i' with
      | zero => simp only [List.getElem?_cons_zero, Option.some.injEq] at hg; subst hg; exact hf
      | succ i' => exact h3 i' g (by omega) (by simpa using hg)

theorem fieldByName_answers {n : Str} {rfs : List Field} {j : Nat} {rf : Field} :
    fieldByName rfs n = some (j, rf) ↔ Answers rfs n j rf := by
  constructor
  · intro h
    obtain ⟨i, rfl, h'⟩ := answers_of h
    rw [Nat.zero_add] at *
    exact h'
  · intro h
    cases hx : fieldByName rfs n with
    | none => exact absurd h.answers (fieldByNameFrom_none hx _ (List.mem_of_getElem? h.get))
    | some x =>
      obtain ⟨i, g⟩ := x
      obtain ⟨i', h1, h2⟩ := answers_of hx
      simp only [Nat.zero_add] at h1
      subst h1
      rcases Nat.lt_trichotomy i j with hij | hij | hij
      · exact absurd h2.answers (h.first i g hij h2.get)
      · subst hij
        have := h.get
        rw [h2.get] at this
        cases this; rfl
      · exact absurd h.answers (h2.first j rf hij h.get)

theorem fieldByName_none_iff {n : Str} {rfs : List Field} : fieldByName rfs n = none ↔ ∀ rf ∈ rfs, ¬ rf.answers n := by
  constructor
  · exact fun h => fieldByNameFrom_none h
  · intro h
    cases hx : fieldByName rfs n with
    | none => rfl
    | some x => obtain ⟨i, g⟩ := x; exact absurd (fieldByName_some hx).2 (h _ (List.mem_of_getElem? (fieldByName_some hx).1))

theorem symbolIndexFrom_eq_none {ss : List Str} {s : Str} : ∀ {k : Nat}, symbolIndexFrom k ss s = none ↔ s ∉ ss := by
  induction ss with
  | nil => intro k; simp [symbolIndexFrom]
  | cons x ss ih =>
    intro k
    simp only [symbolIndexFrom]
    split
    · simp_all
    · rename_i hx; rw [ih]; simp [Ne.symm hx]

theorem symbolIndex_eq_none {ss : List Str} {s : Str} : symbolIndex ss s = none ↔ s ∉ ss := symbolIndexFrom_eq_none

theorem findIdx_none_mem {p : Ty → Bool} : ∀ {ts : List Ty} {k : Nat}, findIdx p k ts = none → ∀ t ∈ ts, p t = false
  | [], k, h => by simp
  | u :: ts, k, h => by
    simp only [findIdx] at h
    split at h
    · cases h
    · rename_i hu
      intro t ht
      rcases List.mem_cons.1 ht with rfl | ht
      · simpa using hu
      · exact findIdx_none_mem h t ht

/-! ### an error has a reason -/
section
variable {ord : Orders} {lax : Bool} {we re : Env} {rec : CState → Ty → Option Ty → CRes} (hre : FieldsOK re)
  (hrec : ∀ st w r e, rec st w r = .error e → e ≠ .fuel → Refused lax we re w r)
include hrec

theorem refused_member {id i t reader st e ts} (ht : t ∈ ts) (h : compileMember we re rec id i t reader st = .error e)
    (hf : e ≠ .fuel) : Refused lax we re (.union ts) reader := by
  have notNull : ∀ {b : Ty}, ¬ b.isNull = true → b ≠ .null := by rintro b hb rfl; exact hb rfl
  unfold compileMember at h
  split at h
  · exact .ofUnionSkipped ht (hrec _ _ _ _ (wrapIR_error h) hf)
  · rename_i rs
    split at h
    · rename_i j r hj
      split at h
      · cases h
      · rename_i hn
        refine .ofUnion ht (notNull hn) (j := j) (r := r) (picks_of ?_) (hrec _ _ _ _ (wrapIR_error h) hf)
        simp only [pickBranch, hj]
    · rename_i hj
      split at h
      · rename_i j r hj'
        split at h
        · cases h
        · rename_i hn
          refine .ofUnion ht (notNull hn) (j := j) (r := r) (picks_of ?_) (hrec _ _ _ _ (wrapIR_error h) hf)
          simp only [pickBranch, hj, hj']
      · cases h
  · rename_i r hr
    split at h
    · rename_i hread
      split at h
      · cases h
      · rename_i hn
        exact .ofUnionPlain ht (notNull hn) (fun rs hrs => hr rs hrs) (readable_iff.1 hread)
          (hrec _ _ _ _ (wrapIR_error h) hf)
    · cases h

theorem refused_members {id reader e ts} (hf : e ≠ .fuel) : ∀ {us : List Ty} {i st}, (∀ t ∈ us, t ∈ ts) →
    compileMembers we re rec id reader i us st = .error e → Refused lax we re (.union ts) reader
  | [], i, st, hm, h => by cases h
  | u :: us, i, st, hm, h => by
    unfold compileMembers at h
    rcases seqIR_error h with h | ⟨x, s, -, h⟩
    · exact refused_member hrec (hm u List.mem_cons_self) h hf
    · exact refused_members hf (fun t ht => hm t (List.mem_cons_of_mem _ ht)) h

omit hrec in
theorem symbols_error {id rs d e} : ∀ {ss : List Str} {i st}, compileSymbols id rs d i ss st = .error e →
    ∃ s ∈ ss, s ∉ rs ∧ d ≠ [] ∧ d ∉ rs
  | [], i, st, h => by cases h
  | s :: ss, i, st, h => by
    have lift : (∃ s ∈ ss, s ∉ rs ∧ d ≠ [] ∧ d ∉ rs) → ∃ s' ∈ s :: ss, s' ∉ rs ∧ d ≠ [] ∧ d ∉ rs :=
      fun ⟨s', h1, h2⟩ => ⟨s', List.mem_cons_of_mem _ h1, h2⟩
    unfold compileSymbols at h
    split at h
    · exact lift (symbols_error (wrapIR_error h))
    · rename_i hs
      split at h
      · rename_i hd
        split at h
        · rename_i hd'
          exact ⟨s, List.mem_cons_self, symbolIndex_eq_none.1 hs, hd, symbolIndex_eq_none.1 hd'⟩
        · exact lift (symbols_error (wrapIR_error h))
      · exact lift (symbols_error (wrapIR_error h))

omit hrec in
theorem defaults_error {e} : ∀ {l : List (Nat × Field)} {st}, compileDefaults l st = .error e →
    ∃ x ∈ l, x.2.dflt = none
  | [], st, h => by cases h
  | (i, f) :: l, st, h => by
    unfold compileDefaults at h
    split at h
    · rename_i hf; exact ⟨(i, f), List.mem_cons_self, by simpa using hf⟩
    · obtain ⟨x, h1, h2⟩ := defaults_error (wrapIR_error h)
      exact ⟨x, List.mem_cons_of_mem _ h1, h2⟩

/-- What can be wrong with a field. -/
theorem fields_error {reader e} (hf : e ≠ .fuel) : ∀ {ws : List Field} {st}, compileFields we re rec reader ws st = .error e →
    ∃ wf ∈ ws, match reader.bind (fun rfs => fieldByName rfs wf.name) with
      | none => Refused lax we re wf.ty none
      | some (_, rf) => ¬ CanRead we re wf.ty rf.ty ∨ Refused lax we re wf.ty (some rf.ty)
  | [], st, h => by cases h
  | wf :: ws, st, h => by
    have lift : (∃ wf ∈ ws, match reader.bind (fun rfs => fieldByName rfs wf.name) with
        | none => Refused lax we re wf.ty none
        | some (_, rf) => ¬ CanRead we re wf.ty rf.ty ∨ Refused lax we re wf.ty (some rf.ty)) →
        ∃ wf' ∈ wf :: ws, match reader.bind (fun rfs => fieldByName rfs wf'.name) with
        | none => Refused lax we re wf'.ty none
        | some (_, rf) => ¬ CanRead we re wf'.ty rf.ty ∨ Refused lax we re wf'.ty (some rf.ty) :=
      fun ⟨x, h1, h2⟩ => ⟨x, List.mem_cons_of_mem _ h1, h2⟩
    unfold compileFields at h
    split at h
    · rename_i hx
      rcases seqIR_error h with h | ⟨x, s, -, h⟩
      · exact ⟨wf, List.mem_cons_self, by rw [hx]; exact hrec _ _ _ _ h hf⟩
      · exact lift (fields_error hf h)
    · rename_i j rf hx
      split at h
      · rcases seqIR_error h with h | ⟨x, s, -, h⟩
        · exact ⟨wf, List.mem_cons_self, by rw [hx]; exact .inr (hrec _ _ _ _ (wrapIR_error h) hf)⟩
        · exact lift (fields_error hf h)
      · rename_i hn
        exact ⟨wf, List.mem_cons_self, by rw [hx]; exact .inl fun hc => hn (readable_iff.2 hc)⟩

include hre in
theorem refused_ref {q q' st e} (h : compileRef ord lax we re rec q q' st = .error e) (hf : e ≠ .fuel) :
    Refused lax we re (.ref q) (q'.map Ty.ref) := by
  unfold compileRef at h
  split at h
  · rename_i hw
    exact .unknown hw fun rs => by cases q' <;> simp
  · rename_i wd hw
    cases q' with
    | none =>
      simp only at h
      unfold compileDef at h
      split at h
      · rename_i wfs hk hk'
        unfold compileCall at h
        split at h
        · cases h
        · split at h
          · rename_i e' hr
            cases h
            unfold compileRecord at hr
            rcases seqIR_error hr with hr | ⟨x, s, -, hr⟩
            · obtain ⟨wf, h1, h2⟩ := fields_error hrec hf hr
              exact .fieldSkipped hw hk h1 h2
            · cases hr
          · cases h
      · simp at *
      · cases h
      · cases h
      · cases h
      · simp at *
      · rename_i h1 h2 h3 h4 h5 h6
        exfalso
        cases hk : wd.kind with
        | record fs => exact h1 fs hk rfl
        | fixed n => exact h3 n hk rfl
        | enum ss d => exact h5 ss d hk rfl
    | some q' =>
      simp only at h
      split at h
      · rename_i hr
        exact .unknownReader hr
      · rename_i rd hr
        split at h
        · unfold compileDef at h
          split at h
          · simp at *
          · rename_i wfs rfs hk hk'
            simp only [Option.map_some, Option.some.injEq] at hk'
            have hrec2 : Records we re q q' wfs rfs := ⟨⟨wd, hw, hk⟩, ⟨rd, hr, hk'⟩⟩
            unfold compileCall at h
            split at h
            · cases h
            · split at h
              · rename_i e' hx
                cases h
                unfold compileRecord at hx
                rcases seqIR_error hx with hx | ⟨x, s, -, hx⟩
                · obtain ⟨wf, h1, h2⟩ := fields_error hrec hf hx
                  simp only [Option.bind_some] at h2
                  split at h2
                  · rename_i hn
                    exact .fieldDropped hrec2 h1 (fieldByName_none_iff.1 hn) h2
                  · rename_i j rf hj
                    rcases h2 with h2 | h2
                    · exact .fieldType hrec2 h1 (fieldByName_answers.1 hj) h2
                    · exact .field hrec2 h1 (fieldByName_answers.1 hj) h2
                · obtain ⟨⟨j, rf⟩, h1, h2⟩ := defaults_error hx
                  have h1 := (ord.defaults_perm _ _).mem_iff.1 h1
                  rw [mem_missing (hre _ _ _ hr hk')] at h1
                  exact .noDefault hrec2 h1.1 (fun wf hwf ha => h1.2 wf hwf rf (fieldByName_answers.2 ha)) h2
              · cases h
          · cases h
          · cases h
          · simp at *
          · rename_i ss d rss d' hk hk'
            simp only [Option.map_some, Option.some.injEq] at hk'
            unfold compileEnum at h
            obtain ⟨s, h1, h2, h3, h4⟩ := symbols_error (wrapIR_error h)
            exact .enumDefault hw hr hk hk' h1 h2 h3 h4
          · rename_i h1 h2 h3 h4 h5 h6
            refine .kinds hw hr ?_
            cases hk : wd.kind <;> cases hk' : rd.kind <;> simp only <;>
              first
              | exact (h2 _ _ hk (by rw [Option.map_some, hk'])).elim
              | exact (h4 _ _ hk (by rw [Option.map_some, hk'])).elim
              | exact (h6 _ _ _ _ hk (by rw [Option.map_some, hk'])).elim
        · rename_i hn
          simp only [Bool.or_eq_true, not_or, Bool.not_eq_true] at hn
          exact .names hn.1 hw hr fun hh => by rw [def_readable_iff.2 hh] at hn; exact absurd hn.2 (by simp)

include hre in
theorem refused_body {w r st e} (hu : w.isUnion = true ∨ ∀ rs, r ≠ some (.union rs))
    (h : compileBody ord lax we re rec w r st = .error e) (hf : e ≠ .fuel) : Refused lax we re w r := by
  unfold compileBody at h
  cases w <;> simp only at h <;> try (cases h; done)
  case union ts =>
    unfold compileUnion at h
    exact refused_members hrec hf (fun _ h => h) (wrapIR_error h)
  case array wi =>
    have hu : ∀ rs, r ≠ some (.union rs) := hu.elim (fun hu => by cases hu) id
    split at h
    · exact .itemSkipped (hrec _ _ _ _ (wrapIR_error h) hf)
    · exact .item (hrec _ _ _ _ (wrapIR_error h) hf)
    · rename_i h1 h2
      cases r with
      | none => exact absurd rfl h1
      | some r => exact .array (fun t ht => h2 t (by rw [ht])) (fun rs hrs => hu rs (by rw [hrs]))
  case map wi =>
    have hu : ∀ rs, r ≠ some (.union rs) := hu.elim (fun hu => by cases hu) id
    split at h
    · exact .valueSkipped (hrec _ _ _ _ (wrapIR_error h) hf)
    · exact .value (hrec _ _ _ _ (wrapIR_error h) hf)
    · rename_i h1 h2
      cases r with
      | none => exact absurd rfl h1
      | some r => exact .map (fun t ht => h2 t (by rw [ht])) (fun rs hrs => hu rs (by rw [hrs]))
  case ref q =>
    have hu : ∀ rs, r ≠ some (.union rs) := hu.elim (fun hu => by cases hu) id
    split at h
    · exact refused_ref hre hrec h hf
    · exact refused_ref hre hrec h hf
    · rename_i h1 h2
      cases r with
      | none => exact absurd rfl h1
      | some r => exact .ref (fun t ht => h2 t (by rw [ht])) (fun rs hrs => hu rs (by rw [hrs]))
end

theorem notUnion {w : Ty} (h : w.isUnion = false) : ∀ ts, w ≠ .union ts := by rintro ts rfl; cases h

theorem refused_type {ord : Orders} {lax : Bool} {we re : Env} (hre : FieldsOK re) : ∀ n st w r e,
    compileType ord lax we re n st w r = .error e → e ≠ .fuel → Refused lax we re w r := by
  intro n
  induction n with
  | zero => intro st w r e h hf; simp [compileType] at h; exact absurd h.symm hf
  | succ n ih =>
    intro st w r e h hf
    unfold compileType at h
    split at h
    · rename_i rs hu
      split at h
      · rename_i j r' hj
        obtain ⟨i, -, hi⟩ := first_of_findIdx (fun u => readable_iff) hj
        exact .member (notUnion hu) hi (ih _ _ _ _ (wrapIR_error h) hf)
      · rename_i hj
        refine .noMember (notUnion hu) fun t ht hc => ?_
        have := findIdx_none_mem hj t ht
        rw [readable_iff.2 hc] at this
        cases this
    · rename_i hu
      refine refused_body hre ih ?_ h hf
      cases hw : w.isUnion with
      | true => exact .inl rfl
      | false => exact .inr fun rs hr => hu rs hw hr

/-! ### what is refused is an error -/

section
variable {ord : Orders} {lax : Bool} {we re : Env} {fin : CState}
  (hbody : ∀ key pair, (key, pair) ∈ fin.started → ∃ body st2, BodyOf ord lax we re key pair body st2 ∧ Ext st2 fin)
  (hcoll : fin.collision = false) (hwe : NamesOK we) (hren : NamesOK re)

/-- The compilation of a pair of types was a part of the whole. -/
def Done (ord : Orders) (lax : Bool) (we re : Env) (fin : CState) (w : Ty) (r : Option Ty) : Prop :=
  ∃ n st irs st', compileType ord lax we re n st w r = .ok (irs, st') ∧ Ext st' fin

theorem done_body {w r} (h : Done ord lax we re fin w r) (hu : w.isUnion = true ∨ ∀ rs, r ≠ some (.union rs)) :
    ∃ n st irs st', compileBody ord lax we re (compileType ord lax we re n) w r st = .ok (irs, st') ∧ Ext st' fin := by
  obtain ⟨n, st, irs, st', h, hx⟩ := h
  cases n with
  | zero => simp [compileType] at h
  | succ n =>
    unfold compileType at h
    split at h
    · rename_i rs hw
      rcases hu with hu | hu
      · rw [hw] at hu; cases hu
      · exact absurd rfl (hu rs)
    · exact ⟨n, st, irs, st', h, hx⟩

theorem done_fields {n reader} : ∀ {ws : List Field} {st irs st'},
    compileFields we re (compileType ord lax we re n) reader ws st = .ok (irs, st') → Ext st' fin → ∀ wf ∈ ws,
    match reader.bind (fun rfs => fieldByName rfs wf.name) with
    | none => Done ord lax we re fin wf.ty none
    | some (_, rf) => CanRead we re wf.ty rf.ty ∧ Done ord lax we re fin wf.ty (some rf.ty)
  | [], st, irs, st', h, hx, wf, hm => by cases hm
  | w :: ws, st, irs, st', h, hx, wf, hm => by
    have hE := emits_type ord lax we re n
    unfold compileFields at h
    split at h
    · rename_i hw
      obtain ⟨x, s1, y, h1, h2, rfl⟩ := seqIR_ok h
      rcases List.mem_cons.1 hm with rfl | hm
      · rw [hw]
        exact ⟨n, _, _, _, h1, (emits_fields hE _ _ _ _ h2).ext.trans hx⟩
      · exact done_fields h2 hx wf hm
    · rename_i j rf hw
      split at h
      · rename_i hread
        obtain ⟨x, s1, y, h1, h2, rfl⟩ := seqIR_ok h
        rcases List.mem_cons.1 hm with rfl | hm
        · rw [hw]
          obtain ⟨mid, hm', -⟩ := wrapIR_ok h1
          exact ⟨readable_iff.1 hread, n, _, _, _, hm', (emits_fields hE _ _ _ _ h2).ext.trans hx⟩
        · exact done_fields h2 hx wf hm
      · cases h

theorem done_defaults : ∀ {l : List (Nat × Field)} {st irs st'}, compileDefaults l st = .ok (irs, st') →
    ∀ x ∈ l, x.2.dflt ≠ none
  | [], st, irs, st', h, x, hx => by cases hx
  | (i, f) :: l, st, irs, st', h, x, hx => by
    unfold compileDefaults at h
    split at h
    · cases h
    · rename_i hf
      obtain ⟨mid, hm, -⟩ := wrapIR_ok h
      rcases List.mem_cons.1 hx with rfl | hx
      · intro he
        simp only at he
        exact hf (by rw [he]; rfl)
      · exact done_defaults hm x hx

theorem done_symbols {id rs d} : ∀ {ss : List Str} {i st irs st'}, compileSymbols id rs d i ss st = .ok (irs, st') →
    ∀ s ∈ ss, s ∈ rs ∨ d = [] ∨ d ∈ rs
  | [], i, st, irs, st', h, s, hs => by cases hs
  | s0 :: ss, i, st, irs, st', h, s, hs => by
    have mem : ∀ {x k}, symbolIndex rs x = some k → x ∈ rs := by
      intro x k hk
      by_cases hx : x ∈ rs
      · exact hx
      · rw [symbolIndex_eq_none.2 hx] at hk; cases hk
    unfold compileSymbols at h
    split at h
    · rename_i k hk
      obtain ⟨mid, hm, -⟩ := wrapIR_ok h
      rcases List.mem_cons.1 hs with rfl | hs
      · exact .inl (mem hk)
      · exact done_symbols hm s hs
    · split at h
      · split at h
        · cases h
        · rename_i k hk
          obtain ⟨mid, hm, -⟩ := wrapIR_ok h
          exact .inr (.inr (mem hk))
      · rename_i hd
        obtain ⟨mid, hm, -⟩ := wrapIR_ok h
        exact .inr (.inl (by simpa using hd))

theorem done_members {n id reader} : ∀ {ts : List Ty} {i st irs st'},
    compileMembers we re (compileType ord lax we re n) id reader i ts st = .ok (irs, st') → Ext st' fin →
    ∀ t ∈ ts, match reader with
      | none => Done ord lax we re fin t none
      | some (.union rs) => t ≠ .null → ∀ j r, Picks we re t rs j r → Done ord lax we re fin t (some r)
      | some r => t ≠ .null → CanRead we re t r → Done ord lax we re fin t (some r)
  | [], i, st, irs, st', h, hx, t, ht => by cases ht
  | u :: ts, i, st, irs, st', h, hx, t, ht => by
    have hE := emits_type ord lax we re n
    unfold compileMembers at h
    obtain ⟨x, s1, y, h1, h2, rfl⟩ := seqIR_ok h
    have hx1 : Ext s1 fin := by
      have he : Emits _ (.cases id (i + 1) (i + 1 + ts.length)) s1 y st' := emits_members hE _ _ _ _ _ h2
      exact he.ext.trans hx
    rcases List.mem_cons.1 ht with rfl | ht
    · unfold compileMember at h1
      split at h1
      · obtain ⟨mid, hm, -⟩ := wrapIR_ok h1
        exact ⟨n, _, _, _, hm, hx1⟩
      · rename_i rs
        intro hn j r hp
        have hnn : ¬ t.isNull = true := by cases t <;> simp [Ty.isNull] at hn ⊢
        have hp := pickBranch_of hp
        unfold pickBranch at hp
        split at h1
        · rename_i j' r' hj
          rw [hj] at hp
          cases hp
          rw [if_neg hnn] at h1
          obtain ⟨mid, hm, -⟩ := wrapIR_ok h1
          exact ⟨n, _, _, _, hm, hx1⟩
        · rename_i hj
          rw [hj] at hp
          simp only at hp
          rw [hp] at h1
          simp only at h1
          rw [if_neg hnn] at h1
          obtain ⟨mid, hm, -⟩ := wrapIR_ok h1
          exact ⟨n, _, _, _, hm, hx1⟩
      · rename_i r hr
        have key : t ≠ .null → CanRead we re t r → Done ord lax we re fin t (some r) := by
          intro hn hc
          have hnn : ¬ t.isNull = true := by cases t <;> simp [Ty.isNull] at hn ⊢
          rw [if_pos (readable_iff.2 hc), if_neg hnn] at h1
          obtain ⟨mid, hm, -⟩ := wrapIR_ok h1
          exact ⟨n, _, _, _, hm, hx1⟩
        cases r with
        | union rs => exact absurd rfl (hr rs)
        | _ => exact key
    · exact done_members h2 hx t ht

include hbody hcoll hwe hren

/-- The record methods of a program that was compiled. -/
theorem done_call {n key pair wfs reader st irs st'} (hp : PairOf we re pair wfs reader)
    (h : compileCall ord we re (compileType ord lax we re n) key pair wfs reader st = .ok (irs, st'))
    (hx : Ext st' fin) : ∃ m k st1 body st2,
      compileRecord ord we re (compileType ord lax we re m) k wfs reader st1 = .ok (body, st2) ∧ Ext st2 fin := by
  have hmem : (key, pair) ∈ fin.started := by
    unfold compileCall at h
    split at h
    · rename_i pair' hf
      cases h
      have h1 : ¬ (st.collision || decide (pair' ≠ pair)) = true := by
        intro hh
        have := hx.collision hh
        rw [hcoll] at this; cases this
      simp only [Bool.or_eq_true, decide_eq_true_eq, not_or, ne_eq, Decidable.not_not] at h1
      obtain ⟨-, rfl⟩ := h1
      exact hx.started.subset (findMethod_some hf)
    · split at h
      · cases h
      · rename_i body st2 hb
        cases h
        have he := (emits_record (emits_type ord lax we re n) hb).ext
        exact hx.started.subset (he.started.subset (by simp))
  obtain ⟨body, st2, ⟨m, wfs', reader', k, st1, hp', hc⟩, hx2⟩ := hbody key pair hmem
  have hw : wfs' = wfs := by
    obtain ⟨⟨q, wd, h1, h2, h3⟩, -⟩ := hp
    obtain ⟨⟨q', wd', h1', h2', h3'⟩, -⟩ := hp'
    have := hwe _ _ _ _ h1 h1' (h2.trans h2'.symm)
    subst this
    rw [h3] at h3'
    simpa using h3'.symm
  have hr : reader' = reader := by
    obtain ⟨-, hp⟩ := hp
    obtain ⟨-, hp'⟩ := hp'
    rcases hp with ⟨h1, h2⟩ | ⟨q, rd, rfs, h1, h2, h3, h4⟩
    · rcases hp' with ⟨h1', h2'⟩ | ⟨q', rd', rfs', h1', h2', h3', h4'⟩
      · rw [h2, h2']
      · rw [h1] at h2'; cases h2'
    · rcases hp' with ⟨h1', h2'⟩ | ⟨q', rd', rfs', h1', h2', h3', h4'⟩
      · rw [h2] at h1'; cases h1'
      · rw [h2] at h2'
        simp only [Option.some.injEq] at h2'
        have := hren _ _ _ _ h1 h1' h2'
        subst this
        rw [h3] at h3'
        simp only [DefKind.record.injEq] at h3'
        rw [h4, h4', h3']
  subst hw hr
  exact ⟨m, k, st1, body, st2, hc, hx2⟩

theorem done_records {q q' wfs rfs} (hr : Records we re q q' wfs rfs) (h : Done ord lax we re fin (.ref q) (some (.ref q'))) :
    ∃ m k st1 body st2,
      compileRecord ord we re (compileType ord lax we re m) k wfs (some rfs) st1 = .ok (body, st2) ∧ Ext st2 fin := by
  obtain ⟨⟨wd, hw, hk⟩, ⟨rd, hr, hk'⟩⟩ := hr
  obtain ⟨n, st, irs, st', h, hx⟩ := done_body h (.inr (by simp))
  simp only [compileBody, compileRef, hw, hr] at h
  split at h
  · simp only [compileDef, hk, Option.map_some, hk'] at h
    exact done_call hbody hcoll hwe hren ⟨⟨q, wd, hw, rfl, hk⟩, .inr ⟨q', rd, rfs, hr, rfl, hk', rfl⟩⟩ h hx
  · cases h

theorem done_record_fields {q q' wfs rfs} (hr : Records we re q q' wfs rfs)
    (h : Done ord lax we re fin (.ref q) (some (.ref q'))) : ∀ wf ∈ wfs,
    match fieldByName rfs wf.name with
    | none => Done ord lax we re fin wf.ty none
    | some (_, rf) => CanRead we re wf.ty rf.ty ∧ Done ord lax we re fin wf.ty (some rf.ty) := by
  obtain ⟨m, k, st1, body, st2, h, hx⟩ := done_records hbody hcoll hwe hren hr h
  unfold compileRecord at h
  obtain ⟨x, s1, y, h1, h2, rfl⟩ := seqIR_ok h
  have he : Emits (BodyOf ord lax we re) .code s1 y st2 := emits_defaults _ _ _ _ h2
  exact done_fields h1 (he.ext.trans hx)

theorem not_refused (hre : FieldsOK re) {w r} (h : Refused lax we re w r) : ¬ Done ord lax we re fin w r := by
  induction h with
  | @noMember w rs hw hn =>
    rintro ⟨n, st, irs, st', h, hx⟩
    cases n with
    | zero => simp [compileType] at h
    | succ n =>
      unfold compileType at h
      split at h
      · rename_i rs hu heq
        cases heq
        split at h
        · rename_i j r' hj
          obtain ⟨i, -, hi⟩ := first_of_findIdx (fun u => readable_iff) hj
          exact hn _ (List.mem_of_getElem? hi.get) hi.holds
        · cases h
      · rename_i w' hu
        cases w with
        | union ts => exact hw ts rfl
        | _ => exact hu _ rfl rfl
  | @member w rs j t hw hj _ ih =>
    rintro ⟨n, st, irs, st', h, hx⟩
    cases n with
    | zero => simp [compileType] at h
    | succ n =>
      unfold compileType at h
      split at h
      · rename_i rs hu heq
        cases heq
        rw [findIdx_first (fun u => readable_iff) 0 hj] at h
        obtain ⟨mid, hm, -⟩ := wrapIR_ok h
        exact ih ⟨n, _, _, _, hm, hx⟩
      · rename_i w' hu
        cases w with
        | union ts => exact hw ts rfl
        | _ => exact hu _ rfl rfl
  | array h1 h2 =>
    intro h
    obtain ⟨n, st, irs, st', h, hx⟩ := done_body h (.inr fun rs hr => h2 rs (by simpa using hr))
    simp only [compileBody] at h
    split at h
    · simp at *
    · rename_i heq; cases heq; exact h1 _ rfl
    · cases h
  | item _ ih =>
    intro h
    obtain ⟨n, st, irs, st', h, hx⟩ := done_body h (.inr (by simp))
    obtain ⟨mid, hm, -⟩ := wrapIR_ok h
    exact ih ⟨n, _, _, _, hm, hx⟩
  | itemSkipped _ ih =>
    intro h
    obtain ⟨n, st, irs, st', h, hx⟩ := done_body h (.inr (by simp))
    obtain ⟨mid, hm, -⟩ := wrapIR_ok h
    exact ih ⟨n, _, _, _, hm, hx⟩
  | map h1 h2 =>
    intro h
    obtain ⟨n, st, irs, st', h, hx⟩ := done_body h (.inr fun rs hr => h2 rs (by simpa using hr))
    simp only [compileBody] at h
    split at h
    · simp at *
    · rename_i heq; cases heq; exact h1 _ rfl
    · cases h
  | value _ ih =>
    intro h
    obtain ⟨n, st, irs, st', h, hx⟩ := done_body h (.inr (by simp))
    obtain ⟨mid, hm, -⟩ := wrapIR_ok h
    exact ih ⟨n, _, _, _, hm, hx⟩
  | valueSkipped _ ih =>
    intro h
    obtain ⟨n, st, irs, st', h, hx⟩ := done_body h (.inr (by simp))
    obtain ⟨mid, hm, -⟩ := wrapIR_ok h
    exact ih ⟨n, _, _, _, hm, hx⟩
  | ref h1 h2 =>
    intro h
    obtain ⟨n, st, irs, st', h, hx⟩ := done_body h (.inr fun rs hr => h2 rs (by simpa using hr))
    simp only [compileBody] at h
    split at h
    · simp at *
    · rename_i heq; cases heq; exact h1 _ rfl
    · cases h
  | unknown h1 h2 =>
    intro h
    obtain ⟨n, st, irs, st', h, hx⟩ := done_body h (.inr h2)
    simp only [compileBody] at h
    split at h
    · simp [compileRef, h1] at h
    · simp [compileRef, h1] at h
    · cases h
  | @unknownReader q q' h1 =>
    intro h
    obtain ⟨n, st, irs, st', h, hx⟩ := done_body h (.inr (by simp))
    simp only [compileBody, compileRef, h1] at h
    split at h
    · cases h
    · cases h
  | names h1 h2 h3 h4 =>
    intro h
    obtain ⟨n, st, irs, st', h, hx⟩ := done_body h (.inr (by simp))
    simp only [compileBody, compileRef, h2, h3, h1, Bool.false_or] at h
    split at h
    · rename_i hd; exact h4 (def_readable_iff.1 hd)
    · cases h
  | @kinds q q' wd rd h1 h2 h3 =>
    intro h
    obtain ⟨n, st, irs, st', h, hx⟩ := done_body h (.inr (by simp))
    simp only [compileBody, compileRef, h1, h2] at h
    split at h
    · unfold compileDef at h
      cases hk : wd.kind <;> cases hk' : rd.kind <;> simp only [hk, hk', Option.map_some] at h h3 <;> cases h
    · cases h
  | fieldType hr hm ha hn =>
    intro h
    have := done_record_fields hbody hcoll hwe hren hr h _ hm
    rw [fieldByName_answers.2 ha] at this
    exact hn this.1
  | field hr hm ha _ ih =>
    intro h
    have := done_record_fields hbody hcoll hwe hren hr h _ hm
    rw [fieldByName_answers.2 ha] at this
    exact ih this.2
  | fieldDropped hr hm ha _ ih =>
    intro h
    have := done_record_fields hbody hcoll hwe hren hr h _ hm
    rw [fieldByName_none_iff.2 ha] at this
    exact ih this
  | @fieldSkipped q wd wfs wf hw hk hm _ ih =>
    intro h
    obtain ⟨n, st, irs, st', h, hx⟩ := done_body h (.inr (by simp))
    simp only [compileBody, compileRef, hw, compileDef, hk, Option.map_none] at h
    obtain ⟨m, k, st1, body, st2, h, hx⟩ :=
      done_call hbody hcoll hwe hren ⟨⟨q, wd, hw, rfl, hk⟩, .inl ⟨rfl, rfl⟩⟩ h hx
    unfold compileRecord at h
    obtain ⟨x, s1, y, h1, h2, rfl⟩ := seqIR_ok h
    cases h2
    exact ih (done_fields h1 hx _ hm)
  | @noDefault q q' wfs rfs j rf hr hj hn hd =>
    intro h
    obtain ⟨m, k, st1, body, st2, h, hx⟩ := done_records hbody hcoll hwe hren hr h
    unfold compileRecord at h
    obtain ⟨x, s1, y, h1, h2, rfl⟩ := seqIR_ok h
    obtain ⟨-, rd, hrd, hk'⟩ := hr
    refine done_defaults h2 (j, rf) ((ord.defaults_perm _ _).mem_iff.2 ?_) hd
    rw [mem_missing (hre _ _ _ hrd hk')]
    exact ⟨hj, fun wf hwf rf' hf => hn wf hwf (by
      have := fieldByName_answers.1 hf
      have hg := this.get
      rw [hj] at hg; cases hg
      exact this)⟩
  | enumDefault h1 h2 hk hk' hs hn hd hd' =>
    intro h
    obtain ⟨n, st, irs, st', h, hx⟩ := done_body h (.inr (by simp))
    simp only [compileBody, compileRef, h1, h2, compileDef, hk, hk', Option.map_some] at h
    split at h
    · unfold compileEnum at h
      obtain ⟨mid, hm, -⟩ := wrapIR_ok h
      rcases done_symbols hm _ hs with h | h | h
      · exact hn h
      · exact hd h
      · exact hd' h
    · cases h
  | ofUnion ht hn hp _ ih =>
    intro h
    obtain ⟨n, st, irs, st', h, hx⟩ := done_body h (.inl rfl)
    simp only [compileBody, compileUnion] at h
    obtain ⟨mid, hm, -⟩ := wrapIR_ok h
    exact ih (done_members hm hx _ ht hn _ _ hp)
  | @ofUnionPlain ts t r ht hn hr hc _ ih =>
    intro h
    obtain ⟨n, st, irs, st', h, hx⟩ := done_body h (.inl rfl)
    simp only [compileBody, compileUnion] at h
    obtain ⟨mid, hm, -⟩ := wrapIR_ok h
    have := done_members hm hx _ ht
    cases r with
    | union rs => exact hr rs rfl
    | _ => exact ih (this hn hc)
  | ofUnionSkipped ht _ ih =>
    intro h
    obtain ⟨n, st, irs, st', h, hx⟩ := done_body h (.inl rfl)
    simp only [compileBody, compileUnion] at h
    obtain ⟨mid, hm, -⟩ := wrapIR_ok h
    exact ih (done_members hm hx _ ht)
end

/-- Every method that was started was compiled. -/
theorem started_bodies {ord : Orders} {lax : Bool} {we re : Env} {m w r main st}
    (h : compileType ord lax we re m {} w r = .ok (main, st)) :
    ∀ key pair, (key, pair) ∈ st.started → ∃ body st2, BodyOf ord lax we re key pair body st2 ∧ Ext st2 st := by
  have he := emits_type ord lax we re m _ _ _ _ _ h
  have ht := he.table (st := {}) ⟨by simp, by intro k b hb; simp at hb⟩
  obtain ⟨S, B, h1, h2, h3⟩ := he.finishes
  simp only [List.nil_append] at h1 h2
  intro key pair hmem
  have hk : key ∈ st.bodies.map (·.1) := by
    rw [h2]
    refine h3.mem_iff.1 ?_
    rw [← h1]
    exact List.mem_map.2 ⟨_, hmem, rfl⟩
  obtain ⟨⟨k, body⟩, hb, rfl⟩ := List.mem_map.1 hk
  obtain ⟨pair', st2, h4, h5, h6⟩ := ht.body _ _ hb
  have : pair' = pair := by
    have e1 := findMethod_unique ht.nodup h4
    have e2 := findMethod_unique ht.nodup hmem
    rw [e1] at e2
    simpa using e2
  subst this
  exact ⟨body, st2, h5, h6⟩

/-- An error of `Compile` has one of the reasons in `Refused`. -/
theorem compile_error_reason {ord : Orders} {lax : Bool} {w r : Schema} (hre : FieldsOK r.env) {e}
    (h : compile ord lax w r = .error e) : Refused lax w.env r.env w.root (some r.root) := by
  have hne := compile_ends ord lax w r
  rw [h] at hne
  unfold compile compileFuel at h
  split at h
  · rename_i e' hc
    cases h
    exact refused_type hre _ _ _ _ _ hc (by simpa using hne)
  · rename_i main st hc
    obtain ⟨prog, hp⟩ := link_total ord (emits_type ord lax w.env r.env _ _ _ _ _ _ hc)
    rw [hp] at h; cases h

/-- For schemas with unambiguous names `Compile` returns an error exactly if the schemas do not fit. -/
theorem compile_error_iff {ord : Orders} {w r : Schema} (hs : Sound w r) (hre : FieldsOK r.env) :
    (∃ e, compile ord false w r = .error e) ↔ Refused false w.env r.env w.root (some r.root) := by
  constructor
  · rintro ⟨e, h⟩; exact compile_error_reason hre h
  · intro h
    cases hc : compile ord false w r with
    | error e => exact ⟨e, rfl⟩
    | ok prog =>
      obtain ⟨main, st, h1, h2⟩ := compile_ok hc
      exact absurd ⟨_, _, _, _, h1, Ext.refl _⟩
        (not_refused (started_bodies h1) (hs.clean h1).1 hs.namesW hs.namesR hre h)

/-- Whether `Compile` succeeds does not depend on the order of Go's map iterations. -/
theorem compile_any_order {ord : Orders} (ord' : Orders) {w r : Schema} (hs : Sound w r) (hre : FieldsOK r.env) {prog}
    (h : compile ord false w r = .ok prog) : ∃ prog', compile ord' false w r = .ok prog' := by
  cases hc : compile ord' false w r with
  | ok p => exact ⟨p, rfl⟩
  | error e =>
    obtain ⟨e', he⟩ := (compile_error_iff (ord := ord) hs hre).2 ((compile_error_iff hs hre).1 ⟨e, hc⟩)
    rw [h] at he; cases he

theorem compile_any_order_error {ord : Orders} (ord' : Orders) {w r : Schema} (hs : Sound w r) (hre : FieldsOK r.env) {e}
    (h : compile ord false w r = .error e) : ∃ e', compile ord' false w r = .error e' :=
  (compile_error_iff hs hre).2 ((compile_error_iff hs hre).1 ⟨e, h⟩)

end Verif
