import Verif.Compiler.Flags
/-
Schemas in which null occurs only as a member of unions: null and unions with null are never
matched the wrong way.
-/
namespace Verif
set_option linter.unusedSimpArgs false
set_option linter.unusedVariables false

mutual
/-- `null` occurs only as a member of a union. -/
def Ty.nullInUnions : Ty → Bool
  | .null => false
  | .array t => t.nullInUnions
  | .map t => t.nullInUnions
  | .union ts => Ty.membersNullInUnions ts
  | _ => true
def Ty.membersNullInUnions : List Ty → Bool
  | [] => true
  | t :: ts => (t.isNull || t.nullInUnions) && Ty.membersNullInUnions ts
end

theorem membersNullInUnions_mem {t : Ty} : ∀ {ts : List Ty}, Ty.membersNullInUnions ts = true → t ∈ ts →
    t = .null ∨ t.nullInUnions = true := by
  intro ts
  induction ts with
  | nil => intro _ hm; simp at hm
  | cons u ts ih =>
    intro h hm
    simp only [Ty.membersNullInUnions, Bool.and_eq_true, Bool.or_eq_true] at h
    rcases List.mem_cons.1 hm with rfl | hm
    · rcases h.1 with h1 | h1
      · left; cases t <;> simp [Ty.isNull] at h1 ⊢
      · exact .inr h1
    · exact ih h.2 hm

def FieldsNullInUnions (env : Env) : Prop :=
  ∀ q d fs f, env.find q = some d → d.kind = .record fs → f ∈ fs → f.ty.nullInUnions = true

/-- If both schemas have null in unions only, null is matched with null only. -/
theorem nullsAgree_inUnions {we re : Env} (hw : FieldsNullInUnions we) (hr : FieldsNullInUnions re) {w r : Ty}
    (h1 : w.nullInUnions = true) (h2 : r.nullInUnions = true ∨ (r = .null ∧ w.isUnion = false))
    (htw : TidyFields we) (hw2 : w.tidy = true) (htr : TidyFields re) (hr2 : r.tidy = true) :
    NullsAgree we re w r := by
  have key : ∀ w r w' r', Meets we re w r w' r' → w.nullInUnions = true → w.tidy = true → r.tidy = true →
      (r.nullInUnions = true ∨ (r = .null ∧ w.isUnion = false)) →
      w'.nullInUnions = true ∧ (r'.nullInUnions = true ∨ (r' = .null ∧ w'.isUnion = false)) := by
    intro w r w' r' hm
    induction hm with
    | here => exact fun h _ _ h' => ⟨h, h'⟩
    | step hn _ ih =>
      intro a1 a2 a3 a4
      have hmem : ∀ {rs r t}, r ∈ rs → Ty.tidy (.union rs) = true → (Ty.union rs).nullInUnions = true → Ty.isUnion t = false →
          r.tidy = true ∧ (r.nullInUnions = true ∨ (r = .null ∧ t.isUnion = false)) := by
        intro rs r t hm ht hn hu
        refine ⟨(tidyMembers_mem (by simpa only [Ty.tidy] using ht) hm).2, ?_⟩
        rcases membersNullInUnions_mem (by simpa only [Ty.nullInUnions] using hn) hm with h | h
        · exact .inr ⟨h, hu⟩
        · exact .inl h
      have hun : ∀ {rs w}, (Ty.union rs).nullInUnions = true ∨ (Ty.union rs = .null ∧ Ty.isUnion w = false) →
          (Ty.union rs).nullInUnions = true := by
        intro rs w h
        rcases h with h | h
        · exact h
        · cases h.1
      cases hn with
      | item =>
        refine ih (by simpa only [Ty.nullInUnions] using a1) (by simpa only [Ty.tidy] using a2) (by simpa only [Ty.tidy] using a3) ?_
        rcases a4 with h | h
        · exact .inl (by simpa only [Ty.nullInUnions] using h)
        · cases h.1
      | value =>
        refine ih (by simpa only [Ty.nullInUnions] using a1) (by simpa only [Ty.tidy] using a2) (by simpa only [Ty.tidy] using a3) ?_
        rcases a4 with h | h
        · exact .inl (by simpa only [Ty.nullInUnions] using h)
        · cases h.1
      | into hu hf =>
        have := hmem (findIdx_mem hf) a3 (hun a4) hu
        exact ih a1 a2 this.1 this.2
      | field b1 b2 b3 b4 b5 b6 b7 =>
        have hm := fieldByName_mem b6
        exact ih (hw _ _ _ _ b1 b3 b5) (htw _ _ _ _ b1 b3 b5) (htr _ _ _ _ b2 b4 hm) (.inl (hr _ _ _ _ b2 b4 hm))
      | named b1 b2 b3 =>
        obtain ⟨c1, c2⟩ := tidyMembers_mem (by simpa only [Ty.tidy] using a2) b1
        have := hmem (findIdx_mem b3) a3 (hun a4) c1
        refine ih ?_ c2 this.1 this.2
        rcases membersNullInUnions_mem (by simpa only [Ty.nullInUnions] using a1) b1 with h | h
        · subst h; simp [Ty.isNull] at b2
        · exact h
      | first b1 b2 b3 b4 =>
        obtain ⟨c1, c2⟩ := tidyMembers_mem (by simpa only [Ty.tidy] using a2) b1
        have := hmem (findIdx_mem b4) a3 (hun a4) c1
        refine ih ?_ c2 this.1 this.2
        rcases membersNullInUnions_mem (by simpa only [Ty.nullInUnions] using a1) b1 with h | h
        · subst h; simp [Ty.isNull] at b2
        · exact h
      | single b1 b2 b3 b4 =>
        obtain ⟨c1, c2⟩ := tidyMembers_mem (by simpa only [Ty.tidy] using a2) b1
        refine ih ?_ c2 a3 ?_
        · rcases membersNullInUnions_mem (by simpa only [Ty.nullInUnions] using a1) b1 with h | h
          · subst h; simp [Ty.isNull] at b2
          · exact h
        · rcases a4 with h | h
          · exact .inl h
          · simp [Ty.isUnion] at h
  intro w' r' hm
  obtain ⟨c1, c2⟩ := key _ _ _ _ hm h1 hw2 hr2 h2
  rintro (⟨rfl, _⟩ | ⟨ts, rfl, _, rfl⟩)
  · simp [Ty.nullInUnions] at c1
  · rcases c2 with h | h
    · simp [Ty.nullInUnions] at h
    · simp [Ty.isUnion] at h
end Verif
