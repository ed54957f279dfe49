import Verif.Gen.WellFormed
import Verif.Spec.Path
/-
Field by field, what resolution makes of a record.
-/
namespace Verif
set_option linter.unusedSimpArgs false
set_option linter.unusedVariables false

theorem fieldByNameFrom_some {n : Str} : ∀ {fs : List Field} {k i : Nat} {f : Field},
    fieldByNameFrom k fs n = some (i, f) → ∃ j, i = k + j ∧ fs[j]? = some f ∧ f.answers n
  | [], k, i, f, h => by cases h
  | x :: fs, k, i, f, h => by
    simp only [fieldByNameFrom] at h
    split at h
    · cases h; exact ⟨0, rfl, rfl, ‹_›⟩
    · obtain ⟨j, h1, h2, h3⟩ := fieldByNameFrom_some h
      exact ⟨j + 1, by omega, by simpa using h2, h3⟩

theorem fieldByName_some {n : Str} {fs : List Field} {i : Nat} {f : Field} (h : fieldByName fs n = some (i, f)) :
    fs[i]? = some f ∧ f.answers n := by
  obtain ⟨j, h1, h2, h3⟩ := fieldByNameFrom_some h
  simp at h1; subst h1; exact ⟨h2, h3⟩

theorem fieldByNameFrom_none {n : Str} : ∀ {fs : List Field} {k : Nat},
    fieldByNameFrom k fs n = none → ∀ f ∈ fs, ¬ f.answers n
  | [], k, h => by simp
  | x :: fs, k, h => by
    simp only [fieldByNameFrom] at h
    split at h
    · cases h
    · rename_i hx
      intro f hf
      rcases List.mem_cons.1 hf with rfl | hf
      · exact hx
      · exact fieldByNameFrom_none h f hf

theorem fieldByName_of {n : Str} {fs : List Field} {j : Nat} {f : Field} (hj : fs[j]? = some f) (ha : f.answers n)
    (hu : ∀ (j' : Nat) (f' : Field), fs[j']? = some f' → f'.answers n → j' = j) : fieldByName fs n = some (j, f) := by
  cases h : fieldByName fs n with
  | none => exact absurd ha (fieldByNameFrom_none h f (List.mem_of_getElem? hj))
  | some x =>
    obtain ⟨i, g⟩ := x
    obtain ⟨h1, h2⟩ := fieldByName_some h
    have := hu i g h1 h2
    subst this
    rw [hj] at h1; cases h1; rfl

section
variable {drop : Datum → Bool} {dv : Field → Val} {we re : Env} {rfs : List Field}

theorem resolveFields_length : ∀ {ds : List Datum} {ws : List Field} {slots out : List (Option Val)},
    resolveFields drop dv we re ds ws rfs slots = some out → out.length = slots.length ∧ ds.length = ws.length
  | [], ws, slots, out, h => by
    cases ws with
    | nil => cases h; exact ⟨rfl, rfl⟩
    | cons => cases h
  | d :: ds, ws, slots, out, h => by
    cases ws with
    | nil => cases h
    | cons w ws =>
      simp only [resolveFields] at h
      split at h
      · split at h
        · obtain ⟨h1, h2⟩ := resolveFields_length h; exact ⟨h1, by simp [h2]⟩
        · cases h
      · split at h
        · split at h
          · cases h
          · obtain ⟨h1, h2⟩ := resolveFields_length h
            exact ⟨by simpa using h1, by simp [h2]⟩
        · cases h

/-- A field that no writer field is for is as before. -/
theorem resolveFields_other {j : Nat} : ∀ {ds : List Datum} {ws : List Field} {slots out : List (Option Val)},
    resolveFields drop dv we re ds ws rfs slots = some out →
    (∀ w ∈ ws, ∀ rf, fieldByName rfs w.name ≠ some (j, rf)) → out[j]? = slots[j]?
  | [], ws, slots, out, h, hj => by
    cases ws with
    | nil => cases h; rfl
    | cons => cases h
  | d :: ds, ws, slots, out, h, hj => by
    cases ws with
    | nil => cases h
    | cons w ws =>
      have hj' : ∀ x ∈ ws, ∀ rf, fieldByName rfs x.name ≠ some (j, rf) := fun x hx => hj x (by simp [hx])
      simp only [resolveFields] at h
      split at h
      · split at h
        · exact resolveFields_other h hj'
        · cases h
      · rename_i k rf hk
        split at h
        · split at h
          · cases h
          · rw [resolveFields_other h hj', List.getElem?_set_ne]
            rintro rfl
            exact hj w (by simp) rf hk
        · cases h

/-- A field has what the last writer field for it gave. -/
theorem resolveFields_field {j : Nat} {rf : Field} : ∀ {ds : List Datum} {ws : List Field} {slots out : List (Option Val)}
    {i : Nat} {w : Field},
    resolveFields drop dv we re ds ws rfs slots = some out → j < slots.length → ws[i]? = some w →
    fieldByName rfs w.name = some (j, rf) →
    (∀ (i' : Nat) (w' : Field), ws[i']? = some w' → fieldByName rfs w'.name = some (j, rf) → i' = i) →
    ∃ d v, ds[i]? = some d ∧ out[j]? = some (some v) ∧ w.ty.readableBy we re rf.ty = true ∧
      resolve drop dv we re d w.ty rf.ty = some v
  | [], ws, slots, out, i, w, h, hj, hi, hf, hu => by
    cases ws with
    | nil => simp at hi
    | cons => cases h
  | d :: ds, ws, slots, out, i, w, h, hj, hi, hf, hu => by
    cases ws with
    | nil => cases h
    | cons x ws =>
      simp only [resolveFields] at h
      cases i with
      | zero =>
        simp at hi; subst hi
        rw [hf] at h
        simp only at h
        split at h
        · rename_i hr
          split at h
          · cases h
          · rename_i v hv
            refine ⟨d, v, rfl, ?_, hr, hv⟩
            rw [resolveFields_other (j := j) h, List.getElem?_set_self hj]
            intro y hy rf' hrf
            obtain ⟨n, hn⟩ := List.getElem?_of_mem hy
            have h1 := (fieldByName_some hf).1
            have h2 := (fieldByName_some hrf).1
            rw [h1] at h2; cases h2
            have := hu (n + 1) y (by simpa using hn) hrf
            omega
        · cases h
      | succ i =>
        simp at hi
        have hu' : ∀ (i' : Nat) (w' : Field), ws[i']? = some w' → fieldByName rfs w'.name = some (j, rf) → i' = i := by
          intro i' w' h1 h2
          have := hu (i' + 1) w' (by simpa using h1) h2
          omega
        have fin : ∀ {slots'}, slots'.length = slots.length → resolveFields drop dv we re ds ws rfs slots' = some out →
            ∃ d' v, (d :: ds)[i + 1]? = some d' ∧ out[j]? = some (some v) ∧ w.ty.readableBy we re rf.ty = true ∧
              resolve drop dv we re d' w.ty rf.ty = some v := by
          intro slots' hl h
          obtain ⟨d', v, h1, h2, h3, h4⟩ := resolveFields_field h (by omega) hi hf hu'
          exact ⟨d', v, by simpa using h1, h2, h3, h4⟩
        split at h
        · split at h
          · exact fin rfl h
          · cases h
        · split at h
          · split at h
            · cases h
            · exact fin (by simp) h
          · cases h

theorem fillDefaults_get : ∀ {fs : List Field} {slots : List (Option Val)} {vs : List Val},
    fillDefaults dv fs slots = some vs → vs.length = fs.length ∧ ∀ (j : Nat) (f : Field), fs[j]? = some f →
      (∀ v, slots[j]? = some (some v) → vs[j]? = some v) ∧
      (slots[j]? = some none → f.dflt.isSome = true ∧ vs[j]? = some (dv f))
  | [], [], vs, h => by cases h; exact ⟨rfl, by simp⟩
  | [], _ :: _, vs, h => by simp [fillDefaults] at h
  | f :: fs, [], vs, h => by simp [fillDefaults] at h
  | f :: fs, some v :: s, vs, h => by
    simp only [fillDefaults, Option.map_eq_some_iff] at h
    obtain ⟨vs', h, rfl⟩ := h
    obtain ⟨h1, h2⟩ := fillDefaults_get h
    refine ⟨by simp [h1], ?_⟩
    intro j g hj
    cases j with
    | zero => simp at hj; subst hj; simp
    | succ j => simpa using h2 j g (by simpa using hj)
  | f :: fs, none :: s, vs, h => by
    simp only [fillDefaults] at h
    split at h
    · simp only [Option.map_eq_some_iff] at h
      obtain ⟨vs', h, rfl⟩ := h
      obtain ⟨h1, h2⟩ := fillDefaults_get h
      refine ⟨by simp [h1], ?_⟩
      intro j g hj
      cases j with
      | zero => simp at hj; subst hj; simp; assumption
      | succ j => simpa using h2 j g (by simpa using hj)
    · cases h

/-- A record read as a record, field by field. -/
theorem resolve_record {ds : List Datum} {q q' : QName} {v : Val}
    (h : resolve drop dv we re (.record ds) (.ref q) (.ref q') = some v) :
    ∃ wd rd wfs rfs vs, we.find q = some wd ∧ re.find q' = some rd ∧ wd.kind = .record wfs ∧ rd.kind = .record rfs ∧
      v = .record vs ∧ ds.length = wfs.length ∧ vs.length = rfs.length ∧
      (∀ (i j : Nat) (w rf : Field), wfs[i]? = some w → fieldByName rfs w.name = some (j, rf) →
        (∀ (i' : Nat) (w' : Field), wfs[i']? = some w' → fieldByName rfs w'.name = some (j, rf) → i' = i) →
        ∃ d u, ds[i]? = some d ∧ vs[j]? = some u ∧ resolve drop dv we re d w.ty rf.ty = some u) ∧
      (∀ (j : Nat) (rf : Field), rfs[j]? = some rf → (∀ w ∈ wfs, ∀ rf', fieldByName rfs w.name ≠ some (j, rf')) →
        rf.dflt.isSome = true ∧ vs[j]? = some (dv rf)) := by
  simp only [resolve, intoReader, defAs] at h
  split at h <;> try (cases h; done)
  rename_i wd rd hw hr
  split at h <;> try (cases h; done)
  split at h <;> try (cases h; done)
  rename_i wfs rfs hwk hrk
  split at h <;> try (cases h; done)
  rename_i slots hs
  simp only [Option.map_eq_some_iff] at h
  obtain ⟨vs, hf, rfl⟩ := h
  obtain ⟨h1, h2⟩ := resolveFields_length hs
  obtain ⟨h3, h4⟩ := fillDefaults_get hf
  refine ⟨wd, rd, wfs, rfs, vs, hw, hr, hwk, hrk, rfl, h2, h3, ?_, ?_⟩
  · intro i j w rf hi hb hu
    have hj := (fieldByName_some hb).1
    have hlt : j < rfs.length := (List.getElem?_eq_some_iff.1 hj).1
    obtain ⟨d, u, h5, h6, h7, h8⟩ := resolveFields_field hs (by simpa using hlt) hi hb hu
    exact ⟨d, u, h5, (h4 j rf hj).1 u h6, h8⟩
  · intro j rf hj hn
    have hlt : j < rfs.length := (List.getElem?_eq_some_iff.1 hj).1
    have := resolveFields_other hs hn
    rw [List.getElem?_replicate_of_lt hlt] at this
    exact (h4 j rf hj).2 this

/-- A map read as a map: each key has what its last entry gives. -/
theorem resolve_map {es : List (List Byte × Datum)} {wi ri : Ty} {v : Val}
    (h : resolve drop dv we re (.map es) (.map wi) (.map ri) = some v) :
    ∃ m, v = .map m ∧ ∀ k, match lastEntry es k with
      | none => mapGet m k = none
      | some d => ∃ u, resolve drop dv we re d wi ri = some u ∧ mapGet m k = some u := by
  simp only [resolve, intoReader, Option.map_eq_some_iff] at h
  obtain ⟨vs, hv, rfl⟩ := h
  refine ⟨_, rfl, fun k => ?_⟩
  rw [mapGet_mapOf]
  have key : ∀ (es : List (List Byte × Datum)) (vs : List (List Byte × Val)),
      resolveEntries drop dv we re es wi ri = some vs → match lastEntry es k with
      | none => lastEntry vs k = none
      | some d => ∃ u, resolve drop dv we re d wi ri = some u ∧ lastEntry vs k = some u := by
    intro es
    have hf : ∀ (es : List (List Byte × Datum)) (vs : List (List Byte × Val)),
        resolveEntries drop dv we re es wi ri = some vs →
        resolveEntries drop dv we re (es.filter fun e => decide (e.1 = k)) wi ri =
          some (vs.filter fun e => decide (e.1 = k)) := by
      intro es
      induction es with
      | nil => intro vs h; cases h; rfl
      | cons e es ih =>
        obtain ⟨k', d⟩ := e
        intro vs h
        simp only [resolveEntries] at h
        split at h <;> try (cases h; done)
        rename_i u hu
        simp only [Option.map_eq_some_iff] at h
        obtain ⟨vs', h', rfl⟩ := h
        by_cases hk : k' = k
        · simp only [hk, decide_true, List.filter_cons_of_pos, resolveEntries, hu, ih vs' h', Option.map_some]
        · simp only [hk, decide_false, Bool.false_eq_true, not_false_eq_true, List.filter_cons_of_neg, ih vs' h']
    have hl : ∀ (es : List (List Byte × Datum)) (vs : List (List Byte × Val)),
        resolveEntries drop dv we re es wi ri = some vs → match es.getLast? with
        | none => vs.getLast? = none
        | some e => ∃ u, resolve drop dv we re e.2 wi ri = some u ∧ vs.getLast? = some (e.1, u) := by
      intro es
      induction es with
      | nil => intro vs h; cases h; rfl
      | cons e es ih =>
        obtain ⟨k', d⟩ := e
        intro vs h
        simp only [resolveEntries] at h
        split at h <;> try (cases h; done)
        rename_i u hu
        simp only [Option.map_eq_some_iff] at h
        obtain ⟨vs', h', rfl⟩ := h
        cases es with
        | nil => cases h'; exact ⟨u, hu, rfl⟩
        | cons e' es =>
          have := ih vs' h'
          cases vs' with
          | nil =>
            simp only [resolveEntries] at h'
            split at h' <;> try (cases h'; done)
            simp only [Option.map_eq_some_iff] at h'
            obtain ⟨_, _, h'⟩ := h'
            cases h'
          | cons v' vs' => simpa only [List.getLast?_cons_cons] using this
    intro vs h
    have := hl _ _ (hf es vs h)
    unfold lastEntry
    cases hg : (es.filter fun e => decide (e.1 = k)).getLast? with
    | none => rw [hg] at this; simp only at this; simp [hg, this]
    | some e =>
      rw [hg] at this
      obtain ⟨u, h1, h2⟩ := this
      exact ⟨u, h1, by simp [h2]⟩
  exact key es vs hv
end
end Verif
