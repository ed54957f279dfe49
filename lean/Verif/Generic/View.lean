import Verif.Generic.Decode
/-
Which values have a generic form, and the conditions on a schema.
-/
namespace Verif
set_option linter.unusedSimpArgs false
set_option linter.unusedVariables false

/-- Conditions on a schema for `generic.Codec`: as `WellFormed`, but the root may have any type,
and definitions may have any name. -/
structure GWellFormed (s : Schema) : Prop where
  names : NamesOK s.env
  sizes : SizesOK s.env
  apart : FieldsApart s.env
  symbols : SymbolsApart s.env
  closedFields : FieldsClosed s.env
  closedRoot : s.root.Closed s.env
  tidyFields : TidyFields s.env
  tidyRoot : s.root.tidy = true
  distinct : GoNamesDistinct s.env
  aliases : OneReader s.env s.env
  counted : Counted s

theorem WellFormed.generic {s : Schema} (h : WellFormed s) (hc : Counted s) : GWellFormed s :=
  ⟨h.names, h.sizes, h.apart, h.symbols, h.closedFields, h.closedRoot, h.tidyFields, h.tidyRoot, h.distinct, h.aliases, hc⟩

theorem GWellFormed.suited {s : Schema} (h : GWellFormed s) : GSuited s s where
  namesW := h.names
  namesR := h.names
  sizes := h.sizes
  tidyW := h.tidyFields
  tidyR := h.tidyFields
  rootW := h.tidyRoot
  rootR := h.tidyRoot
  nulls := nullsAgree_self h.apart h.closedFields h.closedRoot
  distinct := h.distinct
  one := h.aliases
  fields := h.apart.nodup
  enums := h.counted.enums

theorem GWellFormed.self {s : Schema} (h : GWellFormed s) : SelfOK s.env := ⟨h.apart, h.symbols, h.closedFields⟩

section
variable {env : Env} {lim : Nat}

theorem nullItems_cons {v : Val} {vs : List Val} (h : v ≠ .nil) :
    Val.nullItems (v :: vs) = (v.nullInside || Val.nullItems vs) := by
  cases v <;> first | exact absurd rfl h | rfl

theorem nullEntries_cons {k : List Byte} {v : Val} {es : List (List Byte × Val)} (h : v ≠ .nil) :
    Val.nullEntries ((k, v) :: es) = (v.nullInside || Val.nullEntries es) := by
  cases v <;> first | exact absurd rfl h | rfl

theorem goViewEntries_cons {k : List Byte} {v : Val} {es : List (List Byte × Val)} {t : Ty} (h : v ≠ .nil) :
    goViewEntries env ((k, v) :: es) t = match goView env v t, goViewEntries env es t with
    | some g, some gs => some ((k, g) :: gs)
    | _, _ => none := by
  cases v <;> first | rfl | exact absurd rfl h

mutual
/-- A value of a type has a generic form unless there is a null in an array or a map. -/
theorem goView_isSome : ∀ (v : Val) (t : Ty), HasTy env lim v t → (goView env v t).isSome = !v.nullInside
  | .null, t, h => by simp [goView, Val.nullInside]
  | .nil, t, h => by simp [goView, Val.nullInside]
  | .bool _, t, h => by simp [goView, Val.nullInside]
  | .int _, t, h => by simp [goView, Val.nullInside]
  | .long _, t, h => by simp [goView, Val.nullInside]
  | .float _, t, h => by simp [goView, Val.nullInside]
  | .double _, t, h => by simp [goView, Val.nullInside]
  | .bytes _, t, h => by simp [goView, Val.nullInside]
  | .string _, t, h => by simp [goView, Val.nullInside]
  | .fixed _, t, h => by simp [goView, Val.nullInside]
  | .enum b, t, h => by
    obtain ⟨q, df, ss, dflt, rfl, hq, hk, h0, h1⟩ := h
    obtain ⟨nm, al, k⟩ := df
    simp only at hk
    subst hk
    have hb : b.toNat = b.toInt.toNat := by
      rw [BitVec.toInt_eq_toNat_cond] at h0 ⊢
      split at h0 <;> rename_i hc
      · simp [hc]
      · have := b.isLt; omega
    have hlt : b.toNat < ss.length := by omega
    simp [goView, hq, List.getElem?_eq_getElem hlt, Val.nullInside]
  | .array vs, t, h => by
    obtain ⟨item, rfl, _, h⟩ := h
    simp only [goView, Option.isSome_map, Val.nullInside]
    exact goViewItems_isSome vs item h
  | .map es, t, h => by
    obtain ⟨item, rfl, _, _, h⟩ := h
    simp only [goView, Option.isSome_map, Val.nullInside]
    exact goViewEntries_isSome es item h
  | .union tag none, t, h => by cases h
  | .union tag (some v), t, h => by
    obtain ⟨ts, u, rfl, hu, _, _, h⟩ := h
    simp only [goView, hu, Val.nullInside]
    exact goView_isSome v u h
  | .record vs, t, h => by
    obtain ⟨q, df, fs, rfl, hq, hk, h⟩ := h
    obtain ⟨nm, al, k⟩ := df
    simp only at hk
    subst hk
    simp only [goView, hq, Option.isSome_map, Val.nullInside]
    exact goViewFields_isSome vs fs h
theorem goViewItems_isSome : ∀ (vs : List Val) (t : Ty), AllHaveTy env lim vs t →
    (goViewItems env vs t).isSome = !Val.nullItems vs
  | [], t, h => by simp [goViewItems, Val.nullItems]
  | v :: vs, t, h => by
    by_cases hv : v = .nil
    · subst hv; simp [goViewItems, Val.nullItems]
    · have h1 := goView_isSome v t h.1
      have h2 := goViewItems_isSome vs t h.2
      rw [goViewItems_cons hv, nullItems_cons hv]
      cases hg : goView env v t <;> rw [hg] at h1 <;> cases hgs : goViewItems env vs t <;> rw [hgs] at h2 <;> simp at h1 h2 <;>
        simp [h1, h2]
theorem goViewEntries_isSome : ∀ (es : List (List Byte × Val)) (t : Ty), EntriesHaveTy env lim es t →
    (goViewEntries env es t).isSome = !Val.nullEntries es
  | [], t, h => by simp [goViewEntries, Val.nullEntries]
  | (k, v) :: es, t, h => by
    by_cases hv : v = .nil
    · subst hv; simp [goViewEntries, Val.nullEntries]
    · have h1 := goView_isSome v t h.2.1
      have h2 := goViewEntries_isSome es t h.2.2
      rw [goViewEntries_cons hv, nullEntries_cons hv]
      cases hg : goView env v t <;> rw [hg] at h1 <;> cases hgs : goViewEntries env es t <;> rw [hgs] at h2 <;> simp at h1 h2 <;>
        simp [h1, h2]
theorem goViewFields_isSome : ∀ (vs : List Val) (fs : List Field), FieldsHaveTy env lim vs fs →
    (goViewFields env vs fs).isSome = !Val.nullFields vs
  | [], fs, h => by cases (h : fs = _); simp [goViewFields, Val.nullFields]
  | v :: vs, fs, h => by
    obtain ⟨f, fs', rfl, h1, h2⟩ := h
    have h1 := goView_isSome v f.ty h1
    have h2 := goViewFields_isSome vs fs' h2
    simp only [goViewFields, Val.nullFields]
    cases hg : goView env v f.ty <;> rw [hg] at h1 <;> cases hgs : goViewFields env vs fs' <;> rw [hgs] at h2 <;> simp at h1 h2 <;>
      simp [h1, h2]
end
end

section
variable {R : Type} {σ : Setting R} {view : R → List Byte} {w r : Schema}

/-- Where there is no promotion and no default, the result is the generic form of what the
generated decoder returns. -/
theorem goutcome_exact (hs : GSuited w r) (hn : Counted r) (hd : σ.ro.Delivers view) {prog}
    (hc : compile σ.ord false w r = .ok prog) {rd : R} {d z v}
    (hp : ReadsAs σ.ro.byteReader σ.lim w.env w.root (view rd) (some (d, z)))
    (hv : resolve Datum.skippable σ.dv w.env r.env d w.root r.root = some v) (he : Exact w.env r.env d w.root r.root) :
    ∃ rd', GDeserializes σ w r rd (.of rd' (itemView r.env r.root v)) ∧ view rd' = z := by
  obtain ⟨rd', h1, h2⟩ := goutcome_value hs hd hc hp (by rw [hv]; rfl)
  refine ⟨rd', ?_, h2⟩
  have hnil := resolve_nil hs.rootW ⟨hs.rootR, hs.nulls⟩ he hv
  unfold rootShow at h1
  by_cases hv' : v = .nil
  · rw [if_pos (hnil.1 hv')] at h1
    rwa [hv']
  · rw [if_neg (fun h => hv' (hnil.2 h)), show_exact hs.enums hs.tidyW hs.tidyR hn.fields d w.root r.root v hs.rootW ⟨hs.rootR, hs.nulls⟩
      hn.root he hv] at h1
    rwa [itemView_ne hv']
end
end Verif
