import Verif.Gen.Outcome
/-
Schemas for which the generated code works, and some lemmas for examples.
-/
namespace Verif
set_option linter.unusedSimpArgs false
set_option linter.unusedVariables false

/-- Conditions on a schema. All but the last three are requirements of the Avro
specification or of Go (`tidy*`: no unions directly in unions); `distinct`, `aliases` and `plain` exclude name clashes (properties C26, C27, C59). -/
structure WellFormed (s : Schema) : Prop where
  /-- a name denotes one definition -/
  names : NamesOK s.env
  /-- sizes of fixeds are not negative -/
  sizes : SizesOK s.env
  /-- the names and aliases of a record's fields are different -/
  apart : FieldsApart s.env
  /-- the symbols of an enum are different -/
  symbols : SymbolsApart s.env
  /-- references resolve, unions have different members -/
  closedFields : FieldsClosed s.env
  closedRoot : s.root.Closed s.env
  /-- no record contains itself directly -/
  grounded : Grounded s.env
  /-- the root is a record or a union: other types have no `Deserialize` function -/
  top : s.root.IsRecord s.env ∨ s.root.isUnion = true
  tidyFields : TidyFields s.env
  tidyRoot : s.root.tidy = true
  /-- different records have different Go names -/
  distinct : GoNamesDistinct s.env
  /-- no record has the name of another among its aliases -/
  aliases : OneReader s.env s.env
  /-- no definition is called `Int`, `String`, ... -/
  plain : PlainNames s.env

theorem FieldsApart.nodup {env : Env} (h : FieldsApart env) : FieldsOK env := by
  intro q d fs hq hk
  rw [List.nodup_iff_pairwise_ne, List.pairwise_iff_getElem]
  intro i j hi hj hij he
  simp only [List.length_map] at hi hj
  simp only [List.getElem_map] at he
  have := h q d fs hq hk i j fs[i] fs[j] (by simp [hi]) (by simp [hj]) (.inl he.symm)
  omega

/-- A schema read by itself matches every type with itself. -/
theorem nullsAgree_self {env : Env} (ha : FieldsApart env) (hf : FieldsClosed env) {t : Ty} (hc : t.Closed env) :
    NullsAgree env env t t := by
  have key : ∀ w r w' r', Meets env env w r w' r' → w = r → w.Closed env → w' = r' := by
    intro w r w' r' hm
    induction hm with
    | here => exact fun h _ => h
    | step hn _ ih =>
      intro he hcl
      subst he
      refine (fun (h : _ ∧ _) => ih h.1 h.2) ?_
      cases hn with
      | item => exact ⟨rfl, by simpa only [Ty.Closed] using hcl⟩
      | value => exact ⟨rfl, by simpa only [Ty.Closed] using hcl⟩
      | into h _ => simp [Ty.isUnion] at h
      | field h1 h2 h3 h4 h5 h6 h7 =>
        rw [h1] at h2; cases h2
        rw [h3] at h4; cases h4
        obtain ⟨i, hi⟩ := List.getElem?_of_mem h5
        have := ha.self h1 h3 hi
        rw [h6] at this
        cases this
        exact ⟨rfl, hf _ _ _ _ h1 h3 h5⟩
      | named h1 h2 h3 =>
        simp only [Ty.Closed] at hcl
        obtain ⟨i, hi⟩ := List.getElem?_of_mem h1
        have := findGoName hcl.2.1 hi
        rw [h3] at this
        cases this
        exact ⟨rfl, allClosed_mem hcl.2.2 h1⟩
      | first h1 h2 h3 h4 =>
        simp only [Ty.Closed] at hcl
        obtain ⟨i, hi⟩ := List.getElem?_of_mem h1
        have := findGoName hcl.2.1 hi
        rw [h3] at this
        cases this
      | single h1 h2 h3 h4 => simp [Ty.isUnion] at h3
  intro w' r' hm
  cases key _ _ _ _ hm rfl hc
  rintro (⟨h1, h2⟩ | ⟨ts, h1, _, h2⟩)
  · exact h2 h1
  · rw [h1] at h2; cases h2

theorem WellFormed.suited {s : Schema} (h : WellFormed s) : Suited s s where
  namesW := h.names
  namesR := h.names
  sizes := h.sizes
  tidyW := h.tidyFields
  tidyR := h.tidyFields
  rootW := h.tidyRoot
  rootR := h.tidyRoot
  nulls := nullsAgree_self h.apart h.closedFields h.closedRoot
  distinct := h.distinct
  one := h.aliases
  plain := h.plain
  fields := h.apart.nodup
  top := h.top

theorem WellFormed.self {s : Schema} (h : WellFormed s) : SelfOK s.env := ⟨h.apart, h.symbols, h.closedFields⟩

theorem WellFormed.compiles {s : Schema} (h : WellFormed s) (ord : Orders) : ∃ prog, compile ord false s s = .ok prog :=
  compile_self h.self h.closedRoot ord

/-! ### what may be dropped -/

section
variable {drop drop' : Datum → Bool} (hd : ∀ d, drop d = true → drop' d = true) (dv : Field → Val) (we re : Env)
include hd

theorem intoReader_mono {w : Ty} {f g : Ty → Option Val} {r : Ty} {v : Val} (h : ∀ t v, f t = some v → g t = some v)
    (hv : intoReader we re w f r = some v) : intoReader we re w g r = some v := by
  cases r <;> simp only [intoReader] at hv ⊢ <;> try exact h _ _ hv
  split at hv
  · simp only [Option.map_eq_some_iff] at hv ⊢
    obtain ⟨a, h1, h2⟩ := hv
    exact ⟨a, h _ _ h1, h2⟩
  · cases hv

mutual
/-- Where dropping less gives a value, dropping more gives the same. -/
theorem resolve_mono : ∀ (d : Datum) (w r : Ty) (v : Val), resolve drop dv we re d w r = some v →
    resolve drop' dv we re d w r = some v
  | .null, w, r, v, h => h
  | .bool _, w, r, v, h => h
  | .int _, w, r, v, h => h
  | .long _, w, r, v, h => h
  | .float _, w, r, v, h => h
  | .double _, w, r, v, h => h
  | .bytes _, w, r, v, h => h
  | .string _, w, r, v, h => h
  | .fixed _, w, r, v, h => h
  | .enum _, w, r, v, h => h
  | .array ds, w, r, v, h => by
    cases w <;> simp only [resolve] at h ⊢ <;> try (cases h; done)
    refine intoReader_mono hd we re (fun t v ht => ?_) h
    cases t <;> simp only at ht ⊢ <;> try (cases ht; done)
    simp only [Option.map_eq_some_iff] at ht ⊢
    obtain ⟨a, h1, h2⟩ := ht
    exact ⟨a, resolveItems_mono ds _ _ a h1, h2⟩
  | .map es, w, r, v, h => by
    cases w <;> simp only [resolve] at h ⊢ <;> try (cases h; done)
    refine intoReader_mono hd we re (fun t v ht => ?_) h
    cases t <;> simp only at ht ⊢ <;> try (cases ht; done)
    simp only [Option.map_eq_some_iff] at ht ⊢
    obtain ⟨a, h1, h2⟩ := ht
    exact ⟨a, resolveEntries_mono es _ _ a h1, h2⟩
  | .union i d, w, r, v, h => by
    cases w <;> simp only [resolve] at h ⊢ <;> try (cases h; done)
    split at h <;> try (cases h; done)
    split at h
    · rename_i hn; rw [if_pos hn]; exact h
    · rename_i hn
      rw [if_neg hn]
      cases r <;> simp only at h ⊢
      case union rs =>
        split at h <;> try (cases h; done)
        simp only [Option.map_eq_some_iff] at h ⊢
        obtain ⟨a, h1, h2⟩ := h
        exact ⟨a, resolve_mono d _ _ a h1, h2⟩
      all_goals
        split at h
        · rename_i hr; rw [if_pos hr]; exact resolve_mono d _ _ v h
        · cases h
  | .record ds, w, r, v, h => by
    cases w <;> simp only [resolve] at h ⊢ <;> try (cases h; done)
    refine intoReader_mono hd we re (fun t v ht => ?_) h
    cases t <;> simp only [defAs] at ht ⊢ <;> try (cases ht; done)
    split at ht <;> try (cases ht; done)
    split at ht <;> try (cases ht; done)
    rename_i hr
    rw [if_pos hr]
    split at ht <;> try (cases ht; done)
    split at ht <;> try (cases ht; done)
    rename_i hf
    rw [resolveFields_mono ds _ _ _ _ hf]
    exact ht
theorem resolveItems_mono : ∀ (ds : List Datum) (w r : Ty) (vs : List Val),
    resolveItems drop dv we re ds w r = some vs → resolveItems drop' dv we re ds w r = some vs
  | [], w, r, vs, h => h
  | d :: ds, w, r, vs, h => by
    simp only [resolveItems] at h ⊢
    split at h <;> try (cases h; done)
    rename_i v hv
    rw [resolve_mono d w r v hv]
    simp only [Option.map_eq_some_iff] at h ⊢
    obtain ⟨a, h1, h2⟩ := h
    exact ⟨a, resolveItems_mono ds _ _ a h1, h2⟩
theorem resolveEntries_mono : ∀ (ds : List (List Byte × Datum)) (w r : Ty) (vs : List (List Byte × Val)),
    resolveEntries drop dv we re ds w r = some vs → resolveEntries drop' dv we re ds w r = some vs
  | [], w, r, vs, h => h
  | (k, d) :: ds, w, r, vs, h => by
    simp only [resolveEntries] at h ⊢
    split at h <;> try (cases h; done)
    rename_i v hv
    rw [resolve_mono d w r v hv]
    simp only [Option.map_eq_some_iff] at h ⊢
    obtain ⟨a, h1, h2⟩ := h
    exact ⟨a, resolveEntries_mono ds _ _ a h1, h2⟩
theorem resolveFields_mono : ∀ (ds : List Datum) (ws rfs : List Field) (slots out : List (Option Val)),
    resolveFields drop dv we re ds ws rfs slots = some out → resolveFields drop' dv we re ds ws rfs slots = some out
  | [], ws, rfs, slots, out, h => h
  | d :: ds, ws, rfs, slots, out, h => by
    cases ws with
    | nil => cases h
    | cons w ws =>
      simp only [resolveFields] at h ⊢
      split at h
      · split at h
        · rename_i hdr; rw [if_pos (hd _ hdr)]; exact resolveFields_mono ds _ _ _ _ h
        · cases h
      · split at h
        · rename_i hr
          rw [if_pos hr]
          split at h <;> try (cases h; done)
          rename_i v hv
          rw [resolve_mono d _ _ v hv]
          exact resolveFields_mono ds _ _ _ _ h
        · cases h
end
end

end Verif
