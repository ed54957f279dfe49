import Verif.Generic.HeapProof
import Verif.VM.Keep
/-
The raw JSON values in what `Deserialize` returns are defaults of the reader's schema.
-/
set_option linter.unusedVariables false
namespace Verif

section
variable (D : Json → Prop)

mutual
/-- The raw JSON values in a value are in `D`. -/
def GVal.Uses : GVal → Prop
  | .json j => D j
  | .list gs => GVal.AllUse gs
  | .map es => GVal.EntriesUse es
  | .record es => GVal.FieldsUse es
  | _ => True
def GVal.AllUse : List GVal → Prop
  | [] => True
  | g :: gs => g.Uses ∧ GVal.AllUse gs
def GVal.EntriesUse : List (List Byte × GVal) → Prop
  | [] => True
  | (_, g) :: gs => g.Uses ∧ GVal.EntriesUse gs
def GVal.FieldsUse : List (Str × GVal) → Prop
  | [] => True
  | (_, g) :: gs => g.Uses ∧ GVal.FieldsUse gs
end

/-- If there is a value, it uses only `D`. -/
def OptUses (o : Option GVal) : Prop := ∀ g, o = some g → g.Uses D

/-- A target uses only `D`, and so do the defaults it may use. -/
def GTgt.Uses : GTgt → Prop
  | .prim v => v.Uses D
  | .enum _ _ => True
  | .array _ items => ∀ o ∈ items, OptUses D o
  | .map _ items => ∀ x ∈ items, OptUses D x.2
  | .union _ d => ∀ o, d = some o → OptUses D o
  | .record fs slots => (∀ f ∈ fs, ∀ j, f.dflt = some j → D j) ∧ ∀ o ∈ slots, OptUses D o
  | .bad => True
end

section
variable {D : Json → Prop}

theorem allUse_of : ∀ {os : List (Option GVal)} {gs}, (∀ o ∈ os, OptUses D o) → allSome os = some gs → GVal.AllUse D gs
  | [], gs, _, h => by simp only [allSome] at h; cases h; simp [GVal.AllUse]
  | none :: _, gs, _, h => by simp [allSome] at h
  | some g :: os, gs, ho, h => by
    simp only [allSome] at h
    cases hr : allSome os with
    | none => rw [hr] at h; cases h
    | some gs' =>
      rw [hr] at h
      cases h
      simp only [GVal.AllUse]
      exact ⟨ho (some g) (by simp) g rfl, allUse_of (fun o h => ho o (by simp [h])) hr⟩

theorem entriesUse_of : ∀ {os : List (List Byte × Option GVal)} {gs}, (∀ x ∈ os, OptUses D x.2) → allKeyed os = some gs →
    GVal.EntriesUse D gs
  | [], gs, _, h => by simp only [allKeyed] at h; cases h; simp [GVal.EntriesUse]
  | (_, none) :: _, gs, _, h => by simp [allKeyed] at h
  | (k, some g) :: os, gs, ho, h => by
    simp only [allKeyed] at h
    cases hr : allKeyed os with
    | none => rw [hr] at h; cases h
    | some gs' =>
      rw [hr] at h
      cases h
      simp only [GVal.EntriesUse]
      exact ⟨ho (k, some g) (by simp) g rfl, entriesUse_of (fun o h => ho o (by simp [h])) hr⟩

theorem fieldsUse_zip : ∀ {ks : List Str} {gs : List GVal}, GVal.AllUse D gs → GVal.FieldsUse D (ks.zip gs)
  | [], gs, _ => by simp [GVal.FieldsUse]
  | _ :: _, [], _ => by simp [GVal.FieldsUse]
  | k :: ks, g :: gs, h => by
    simp only [GVal.AllUse] at h
    simp only [List.zip_cons_cons, GVal.FieldsUse]
    exact ⟨h.1, fieldsUse_zip h.2⟩

theorem GTgt.Uses.datum {t : GTgt} (h : t.Uses D) : OptUses D t.datum := by
  intro g hg
  cases t with
  | prim v => simp only [GTgt.datum] at hg; cases hg; exact h
  | enum ss v => simp only [GTgt.datum] at hg; cases hg; simp [GVal.Uses]
  | array item items =>
    simp only [GTgt.datum] at hg
    cases hr : allSome items with
    | none => rw [hr] at hg; cases hg
    | some gs => rw [hr] at hg; cases hg; simp only [GVal.Uses]; exact allUse_of h hr
  | map item items =>
    simp only [GTgt.datum] at hg
    cases hr : allKeyed items with
    | none => rw [hr] at hg; cases hg
    | some gs => rw [hr] at hg; cases hg; simp only [GVal.Uses]; exact entriesUse_of h hr
  | union ts d => cases d with
    | none => simp [GTgt.datum] at hg
    | some o => exact h o rfl g hg
  | record fs slots =>
    simp only [GTgt.datum, recordView] at hg
    cases hr : allSome slots with
    | none => rw [hr] at hg; cases hg
    | some gs => rw [hr] at hg; cases hg; simp only [GVal.Uses]; exact fieldsUse_zip (allUse_of h.2 hr)
  | bad => simp [GTgt.datum] at hg

/-- The defaults of a schema are in `D`. -/
def DefaultsIn (D : Json → Prop) (env : Env) : Prop :=
  ∀ q d fs, env.find q = some d → d.kind = .record fs → ∀ f ∈ fs, ∀ j, f.dflt = some j → D j

theorem GTgt.new_uses {env : Env} (hd : DefaultsIn D env) (t : Ty) : (GTgt.new env t).Uses D := by
  cases t with
  | ref q =>
    simp only [GTgt.new]
    cases hf : env.find q with
    | none => simp [GTgt.Uses]
    | some d =>
      simp only
      cases hk : d.kind with
      | record fs =>
        simp only [GTgt.Uses]
        refine ⟨hd q d fs hf hk, fun o ho g hg => ?_⟩
        rw [List.eq_of_mem_replicate ho] at hg
        cases hg
      | enum ss dd => simp [GTgt.Uses]
      | fixed n => simp [GTgt.Uses, GVal.Uses]
  | _ => simp [GTgt.new, GTgt.Uses, GVal.Uses]

theorem gSet_uses {t t' : GTgt} {v : GVal} (ht : t.Uses D) (hv : v.Uses D) (h : gSet t v = .ok t') : t'.Uses D := by
  cases t <;> simp only [gSet] at h <;> cases h <;> assumption

theorem mem_set {α : Type} {l : List α} {i : Nat} {a x : α} (h : x ∈ l.set i a) : x = a ∨ x ∈ l := by
  rcases List.mem_or_eq_of_mem_set h with h | h
  · exact .inr h
  · exact .inl h

theorem gOps_uses {env : Env} (hd : DefaultsIn D env) (lim : Nat) : (gOps env lim).Keeps (GTgt.Uses D) where
  setBoolean ht h := gSet_uses ht (by simp [GVal.Uses]) h
  setInt {t v t'} ht h := by
    cases t with
    | enum ss s =>
      simp only [gOps, gSetInt] at h
      split at h
      · cases h
      · split at h <;> cases h
        simp [GTgt.Uses]
    | _ => exact gSet_uses (v := .int v) ht (by simp [GVal.Uses]) h
  setLong {t v t'} ht h := by
    cases t with
    | union ts d => simp only [gOps, gSetLong] at h; cases h; exact ht
    | _ => exact gSet_uses (v := .long v) ht (by simp [GVal.Uses]) h
  setFloat ht h := gSet_uses ht (by simp [GVal.Uses]) h
  setDouble ht h := gSet_uses ht (by simp [GVal.Uses]) h
  setBytes ht h := gSet_uses ht (by simp [GVal.Uses]) h
  setString ht h := gSet_uses ht (by simp [GVal.Uses]) h
  get {t i t'} ht h := by
    cases t <;> simp only [gOps, gGet] at h <;> try cases h
    all_goals
      split at h
      · cases h
      · split at h <;> cases h
        exact GTgt.new_uses hd _
  put {t i s} ht hs := by
    cases t with
    | union ts d =>
      simp only [gOps, gPut, GTgt.Uses]
      intro o ho
      cases ho
      exact hs.datum
    | record fs slots =>
      simp only [gOps, gPut, GTgt.Uses] at ht ⊢
      refine ⟨ht.1, fun o ho => ?_⟩
      rcases mem_set ho with rfl | ho
      · exact hs.datum
      · exact ht.2 o ho
    | _ => exact ht
  setDefault {t i t'} ht h := by
    cases t with
    | record fs slots =>
      simp only [gOps, gSetDefault] at h
      split at h
      · cases h
      · split at h
        · cases h
        · rename_i f hf
          cases h
          simp only [GTgt.Uses] at ht ⊢
          refine ⟨ht.1, fun o ho => ?_⟩
          rcases mem_set ho with rfl | ho
          · intro g hg
            cases hg
            cases hdf : f.dflt with
            | none => simp [GVal.Uses]
            | some j => simp only [GVal.Uses]; exact ht.1 f (List.mem_of_getElem? hf) j hdf
          · exact ht.2 o ho
    | _ => simp only [gOps, gSetDefault] at h; cases h; exact ht
  appendMap {t k t'} ht h := by
    cases t <;> simp only [gOps, gAppendMap] at h <;> cases h
    exact GTgt.new_uses hd _
  putMap {t k s} ht hs := by
    cases t with
    | map item items =>
      simp only [gOps, gPutMap, GTgt.Uses] at ht ⊢
      intro x hx
      rcases mapInsert_keys hx with rfl | hx
      · exact hs.datum
      · exact ht x hx
    | _ => exact ht
  appendArray {t t'} ht h := by
    cases t <;> simp only [gOps, gAppendArray] at h <;> cases h
    exact GTgt.new_uses hd _
  putArray {t s} ht hs := by
    cases t with
    | array item items =>
      simp only [gOps, gPutArray, GTgt.Uses] at ht ⊢
      intro x hx
      rcases List.mem_append.1 hx with hx | hx
      · exact ht x hx
      · simp at hx; subst hx; exact hs.datum
    | _ => exact ht
  nullField {t i t'} ht h := by
    cases t with
    | record fs slots =>
      simp only [gOps, gNullField] at h
      split at h
      · cases h
      · cases h
        simp only [GTgt.Uses] at ht ⊢
        refine ⟨ht.1, fun o ho => ?_⟩
        rcases mem_set ho with rfl | ho
        · intro g hg; cases hg; simp [GVal.Uses]
        · exact ht.2 o ho
    | _ => simp only [gOps, gNullField] at h <;> cases h <;> exact ht
  hintSize {t c t'} ht h := by
    cases t with
    | array item items =>
      simp only [gOps, gHintSize] at h
      split at h
      · cases h
      · cases h; exact ht
    | _ => simp only [gOps, gHintSize] at h <;> cases h <;> exact ht
  finalize {t t'} ht h := by cases h; exact ht

theorem GDeserializes.uses {R : Type} {σ : Setting R} {w r : Schema} {rd rd' : R} {g : GVal} (hd : DefaultsIn D r.env)
    (h : GDeserializes σ w r rd (.value g rd')) : g.Uses D := by
  cases h with
  | value hc he ht => exact (he.keeps (gOps_uses hd _) (GTgt.new_uses hd _)).datum g ht

mutual
/-- Every value that uses only defaults the schema keeps can be built. -/
theorem build_exists {roots : Roots} (hr : ∀ j, D j → ∃ v, (j, v) ∈ roots) : ∀ (g : GVal) (H : Heap), g.Uses D →
    ∃ v H', Build roots H g v H'
  | .nil, H, _ => ⟨_, _, .nil⟩
  | .bool _, H, _ => ⟨_, _, .bool⟩
  | .int _, H, _ => ⟨_, _, .int⟩
  | .long _, H, _ => ⟨_, _, .long⟩
  | .float _, H, _ => ⟨_, _, .float⟩
  | .double _, H, _ => ⟨_, _, .double⟩
  | .string _, H, _ => ⟨_, _, .string⟩
  | .symbol _, H, _ => ⟨_, _, .symbol⟩
  | .bytes _, H, _ => ⟨_, _, .bytes⟩
  | .list gs, H, h => by
    simp only [GVal.Uses] at h
    obtain ⟨vs, H', hb⟩ := buildItems_exists hr gs H h
    exact ⟨_, _, .list hb⟩
  | .map gs, H, h => by
    simp only [GVal.Uses] at h
    obtain ⟨vs, H', hb⟩ := buildEntries_exists hr gs H h
    exact ⟨_, _, .map hb⟩
  | .record gs, H, h => by
    simp only [GVal.Uses] at h
    obtain ⟨vs, H', hb⟩ := buildFields_exists hr gs H h
    exact ⟨_, _, .record hb⟩
  | .json j, H, h => by
    simp only [GVal.Uses] at h
    obtain ⟨v, hv⟩ := hr j h
    exact ⟨_, _, .json hv⟩
theorem buildItems_exists {roots : Roots} (hr : ∀ j, D j → ∃ v, (j, v) ∈ roots) : ∀ (gs : List GVal) (H : Heap),
    GVal.AllUse D gs → ∃ v H', BuildItems roots H gs v H'
  | [], H, _ => ⟨_, _, .nil⟩
  | g :: gs, H, h => by
    simp only [GVal.AllUse] at h
    obtain ⟨v, H1, h1⟩ := build_exists hr g H h.1
    obtain ⟨vs, H2, h2⟩ := buildItems_exists hr gs H1 h.2
    exact ⟨_, _, .cons h1 h2⟩
theorem buildEntries_exists {roots : Roots} (hr : ∀ j, D j → ∃ v, (j, v) ∈ roots) : ∀ (gs : List (List Byte × GVal)) (H : Heap),
    GVal.EntriesUse D gs → ∃ v H', BuildEntries roots H gs v H'
  | [], H, _ => ⟨_, _, .nil⟩
  | (k, g) :: gs, H, h => by
    simp only [GVal.EntriesUse] at h
    obtain ⟨v, H1, h1⟩ := build_exists hr g H h.1
    obtain ⟨vs, H2, h2⟩ := buildEntries_exists hr gs H1 h.2
    exact ⟨_, _, .cons h1 h2⟩
theorem buildFields_exists {roots : Roots} (hr : ∀ j, D j → ∃ v, (j, v) ∈ roots) : ∀ (gs : List (Str × GVal)) (H : Heap),
    GVal.FieldsUse D gs → ∃ v H', BuildFields roots H gs v H'
  | [], H, _ => ⟨_, _, .nil⟩
  | (k, g) :: gs, H, h => by
    simp only [GVal.FieldsUse] at h
    obtain ⟨v, H1, h1⟩ := build_exists hr g H h.1
    obtain ⟨vs, H2, h2⟩ := buildFields_exists hr gs H1 h.2
    exact ⟨_, _, .cons h1 h2⟩
end
end

theorem defaultsIn_env (env : Env) : DefaultsIn (· ∈ env.defaults) env := by
  intro q d fs hf hk f hm j hj
  refine List.mem_flatMap.2 ⟨(q, d), Env.find_mem hf, ?_⟩
  simp only [hk, dfltsOf]
  exact List.mem_filterMap.2 ⟨f, hm, hj⟩
end Verif
