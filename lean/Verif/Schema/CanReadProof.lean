import Verif.Schema.Readable
import Verif.Spec.CanRead
/-
`IsReadableBy` is the relation `CanRead`.
-/
namespace Verif
set_option linter.unusedSimpArgs false
set_option linter.unusedVariables false

section
variable {we re : Env}

theorem anyBranches_iff {p : Ty → Bool} {ts : List Ty} :
    anyBranches p ts = true ↔ ∃ t ∈ ts, anyBranch p t = true := by
  induction ts with
  | nil => simp [anyBranches]
  | cons t ts ih => simp [anyBranches, ih]

theorem anyReadable_iff {ts rs : List Ty} :
    Ty.anyReadable we re ts rs = true ↔ ∃ t ∈ ts, ∃ r ∈ rs, t.readableBy we re r = true := by
  induction ts with
  | nil => simp [Ty.anyReadable]
  | cons t ts ih => simp [Ty.anyReadable, ih]

mutual
theorem readable_into : ∀ (t : Ty) (rs : List Ty),
    t.readableBy we re (.union rs) = true ↔ ∃ r ∈ rs, t.readableBy we re r = true
  | .null, rs => by simp only [Ty.readableBy, anyBranch, anyBranches_iff]
  | .bool, rs => by simp only [Ty.readableBy, anyBranch, anyBranches_iff]
  | .int, rs => by simp only [Ty.readableBy, anyBranch, anyBranches_iff]
  | .long, rs => by simp only [Ty.readableBy, anyBranch, anyBranches_iff]
  | .float, rs => by simp only [Ty.readableBy, anyBranch, anyBranches_iff]
  | .double, rs => by simp only [Ty.readableBy, anyBranch, anyBranches_iff]
  | .bytes, rs => by simp only [Ty.readableBy, anyBranch, anyBranches_iff]
  | .string, rs => by simp only [Ty.readableBy, anyBranch, anyBranches_iff]
  | .array _, rs => by simp only [Ty.readableBy, anyBranch, anyBranches_iff]
  | .map _, rs => by simp only [Ty.readableBy, anyBranch, anyBranches_iff]
  | .ref _, rs => by simp only [Ty.readableBy, anyBranch, anyBranches_iff]
  | .union ts, rs => by
    have h0 : Ty.readableBy we re (.union ts) (.union rs) = Ty.anyReadable we re ts rs := by simp only [Ty.readableBy]
    rw [h0, anyReadable_iff]
    constructor
    · rintro ⟨t, ht, r, hr, h⟩
      exact ⟨r, hr, (readables_of ts r).2 ⟨t, ht, h⟩⟩
    · rintro ⟨r, hr, h⟩
      obtain ⟨t, ht, h⟩ := (readables_of ts r).1 h
      exact ⟨t, ht, r, hr, h⟩
theorem readables_of : ∀ (ts : List Ty) (r : Ty),
    Ty.readableBy we re (.union ts) r = true ↔ ∃ t ∈ ts, t.readableBy we re r = true
  | [], r => by cases r <;> simp [Ty.readableBy, Ty.anyReadable]
  | t :: ts, r => by
    have h1 := readables_of ts r
    have h2 : Ty.readableBy we re (.union (t :: ts)) r = true ↔
        (t.readableBy we re r = true ∨ Ty.readableBy we re (.union ts) r = true) := by
      cases r with
      | union rs =>
        have e : ∀ ts, Ty.readableBy we re (.union ts) (.union rs) = Ty.anyReadable we re ts rs := fun ts => by
          simp only [Ty.readableBy]
        rw [e, e, Ty.anyReadable, Bool.or_eq_true, readable_into t rs, List.any_eq_true]
      | _ => simp [Ty.readableBy, Ty.anyReadable]
    rw [h2, h1]
    simp
end

theorem def_readable_iff {w r : Def} : w.readableBy r = true ↔ SameName w r ∧ SameKind w.kind r.kind := by
  have hn : hasMatchingName w.name r = true ↔ SameName w r := by
    simp [hasMatchingName, SameName]
  unfold Def.readableBy
  cases hw : w.kind <;> cases hr : r.kind <;> simp only [SameKind, hn, Bool.and_eq_true, beq_iff_eq] <;>
    first
    | (simp; done)
    | exact ⟨fun h => ⟨h.2, h.1.symm⟩, fun h => ⟨h.2.symm, h.1⟩⟩

theorem anyBranch_leaf {p : Ty → Bool} {r : Ty} (h : ∀ rs, r ≠ .union rs) : anyBranch p r = p r := by
  cases r <;> first | rfl | exact absurd rfl (h _)

mutual
/-- Unions on the reader's side, nested ones too, are searched for a member. -/
theorem anyBranch_can {w : Ty} {p : Ty → Bool} (h : ∀ r, p r = true → CanRead we re w r) :
    ∀ r : Ty, anyBranch p r = true → CanRead we re w r
  | .union rs, hr => by
    obtain ⟨r, h1, h2⟩ := anyBranches_can h rs hr
    exact .intoUnion h1 h2
  | .null, hr => h _ hr
  | .bool, hr => h _ hr
  | .int, hr => h _ hr
  | .long, hr => h _ hr
  | .float, hr => h _ hr
  | .double, hr => h _ hr
  | .bytes, hr => h _ hr
  | .string, hr => h _ hr
  | .array _, hr => h _ hr
  | .map _, hr => h _ hr
  | .ref _, hr => h _ hr
theorem anyBranches_can {w : Ty} {p : Ty → Bool} (h : ∀ r, p r = true → CanRead we re w r) :
    ∀ rs : List Ty, anyBranches p rs = true → ∃ r ∈ rs, CanRead we re w r
  | [], hr => by cases hr
  | t :: ts, hr => by
    simp only [anyBranches, Bool.or_eq_true] at hr
    rcases hr with hr | hr
    · exact ⟨t, List.mem_cons_self, anyBranch_can h t hr⟩
    · obtain ⟨r, h1, h2⟩ := anyBranches_can h ts hr
      exact ⟨r, List.mem_cons_of_mem _ h1, h2⟩
end

mutual
theorem can_of_readable : ∀ (w r : Ty), w.readableBy we re r = true → CanRead we re w r
  | .null, r, h => anyBranch_can (p := Ty.readsNull) (fun r h => by cases r <;> first | (cases h; done) | exact .null) r (by simpa only [Ty.readableBy] using h)
  | .bool, r, h => anyBranch_can (p := Ty.readsBool) (fun r h => by cases r <;> first | (cases h; done) | exact .bool) r (by simpa only [Ty.readableBy] using h)
  | .int, r, h => anyBranch_can (p := Ty.readsInt) (fun r h => by
      cases r <;> first | (cases h; done) | exact .int | exact .intLong | exact .intFloat | exact .intDouble) r (by simpa only [Ty.readableBy] using h)
  | .long, r, h => anyBranch_can (p := Ty.readsLong) (fun r h => by
      cases r <;> first | (cases h; done) | exact .long | exact .longFloat | exact .longDouble) r (by simpa only [Ty.readableBy] using h)
  | .float, r, h => anyBranch_can (p := Ty.readsFloat) (fun r h => by
      cases r <;> first | (cases h; done) | exact .float | exact .floatDouble) r (by simpa only [Ty.readableBy] using h)
  | .double, r, h => anyBranch_can (p := Ty.readsDouble) (fun r h => by
      cases r <;> first | (cases h; done) | exact .double) r (by simpa only [Ty.readableBy] using h)
  | .bytes, r, h => anyBranch_can (p := Ty.readsString) (fun r h => by
      cases r <;> first | (cases h; done) | exact .bytes | exact .bytesString) r (by simpa only [Ty.readableBy] using h)
  | .string, r, h => anyBranch_can (p := Ty.readsString) (fun r h => by
      cases r <;> first | (cases h; done) | exact .string | exact .stringBytes) r (by simpa only [Ty.readableBy] using h)
  | .array t, r, h => by
    simp only [Ty.readableBy] at h
    refine anyBranch_can (fun r h => ?_) r h
    cases r <;> first | (cases h; done) | skip
    exact .array (can_of_readable t _ h)
  | .map t, r, h => by
    simp only [Ty.readableBy] at h
    refine anyBranch_can (fun r h => ?_) r h
    cases r <;> first | (cases h; done) | skip
    exact .map (can_of_readable t _ h)
  | .ref q, r, h => by
    simp only [Ty.readableBy] at h
    refine anyBranch_can (fun r h => ?_) r h
    cases r <;> first | (cases h; done) | skip
    rename_i q'
    dsimp only at h
    split at h
    · rename_i wd rd h1 h2
      obtain ⟨h3, h4⟩ := def_readable_iff.1 h
      exact .ref h1 h2 h3 h4
    · cases h
  | .union ts, r, h => by
    obtain ⟨t, h1, h2⟩ := can_of_readables ts r ((readables_of ts r).1 h)
    exact .ofUnion h1 h2
theorem can_of_readables : ∀ (ts : List Ty) (r : Ty), (∃ t ∈ ts, t.readableBy we re r = true) →
    ∃ t ∈ ts, CanRead we re t r
  | [], r, h => by obtain ⟨t, h, -⟩ := h; cases h
  | t :: ts, r, h => by
    obtain ⟨u, h1, h2⟩ := h
    by_cases hu : t.readableBy we re r = true
    · exact ⟨t, List.mem_cons_self, can_of_readable t r hu⟩
    · obtain ⟨v, h3, h4⟩ := can_of_readables ts r ⟨u, by
        rcases List.mem_cons.1 h1 with rfl | h
        · exact absurd h2 hu
        · exact h, h2⟩
      exact ⟨v, List.mem_cons_of_mem _ h3, h4⟩
end

theorem readable_of_can {w r : Ty} (h : CanRead we re w r) : w.readableBy we re r = true := by
  induction h with
  | ofUnion ht _ ih => exact (readables_of _ _).2 ⟨_, ht, ih⟩
  | intoUnion hr _ ih => exact (readable_into _ _).2 ⟨_, hr, ih⟩
  | array _ ih => simpa [Ty.readableBy, anyBranch] using ih
  | map _ ih => simpa [Ty.readableBy, anyBranch] using ih
  | ref h1 h2 h3 h4 =>
    simp only [Ty.readableBy, anyBranch, h1, h2]
    exact def_readable_iff.2 ⟨h3, h4⟩
  | _ => simp [Ty.readableBy, anyBranch, Ty.readsNull, Ty.readsBool, Ty.readsInt, Ty.readsLong, Ty.readsFloat,
      Ty.readsDouble, Ty.readsString]

/-- `IsReadableBy` is the relation of the specification. -/
theorem readable_iff {w r : Ty} : w.readableBy we re r = true ↔ CanRead we re w r :=
  ⟨can_of_readable w r, readable_of_can⟩
end
end Verif
