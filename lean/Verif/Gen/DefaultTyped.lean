import Verif.Gen.Typed
import Verif.Spec.Default
/-
What a default stands for is a value of the field's type.
-/
namespace Verif
set_option linter.unusedSimpArgs false
set_option linter.unusedVariables false

mutual
/-- The byte strings in a value have at most 2^31-1 octets. -/
def Val.Small : Val → Prop
  | .bytes x => x.length ≤ 2147483647
  | .string x => x.length ≤ 2147483647
  | .array vs => Val.AllSmall vs
  | .map es => Val.EntriesSmall es
  | .union _ (some v) => v.Small
  | .record vs => Val.AllSmall vs
  | _ => True
def Val.AllSmall : List Val → Prop
  | [] => True
  | v :: vs => v.Small ∧ Val.AllSmall vs
def Val.EntriesSmall : List (List Byte × Val) → Prop
  | [] => True
  | (k, v) :: es => k.length ≤ 2147483647 ∧ v.Small ∧ Val.EntriesSmall es
end

theorem allSmall_mem {v : Val} : ∀ {vs : List Val}, Val.AllSmall vs → v ∈ vs → v.Small
  | [], _, h => by simp at h
  | u :: vs, h, hm => by
    rcases List.mem_cons.1 hm with rfl | hm
    · exact h.1
    · exact allSmall_mem h.2 hm

theorem entriesSmall_mem {k : List Byte} {v : Val} : ∀ {vs : List (List Byte × Val)}, Val.EntriesSmall vs → (k, v) ∈ vs →
    k.length ≤ 2147483647 ∧ v.Small
  | [], _, h => by simp at h
  | (_, u) :: vs, h, hm => by
    rcases List.mem_cons.1 hm with hm | hm
    · cases hm; exact ⟨h.1, h.2.1⟩
    · exact entriesSmall_mem h.2.2 hm

theorem allHaveTy_iff {env : Env} {L : Nat} {t : Ty} : ∀ {vs : List Val},
    AllHaveTy env L vs t ↔ ∀ v ∈ vs, HasTy env L v t
  | [] => by simp [AllHaveTy]
  | v :: vs => by simp [AllHaveTy, allHaveTy_iff (vs := vs)]

theorem fieldsHaveTy_of {env : Env} {L : Nat} : ∀ {vs : List Val} {fs : List Field}, fs.length = vs.length →
    (∀ (i : Nat) f v, fs[i]? = some f → vs[i]? = some v → HasTy env L v f.ty) → FieldsHaveTy env L vs fs
  | [], [], _, _ => rfl
  | [], _ :: _, h, _ => by simp at h
  | _ :: _, [], h, _ => by simp at h
  | v :: vs, f :: fs, h, hf => ⟨f, fs, rfl, hf 0 f v rfl rfl, fieldsHaveTy_of (by simpa using h)
      fun i g u hg hu => hf (i + 1) g u (by simpa using hg) (by simpa using hu)⟩

/-- The value a default stands for is of the type. -/
theorem means_hasTy {env : Env} {b : Bool} (he : EnumsOK env)
    (hf : ∀ q d fs f, env.find q = some d → d.kind = .record fs → f ∈ fs → f.ty.short = true) {j : Json} {t : Ty} {v : Val}
    (h : DefaultMeans env b j t v) : t.short = true → v.Small → ∃ L, HasTy env L v t := by
  induction h with
  | null => exact fun _ _ => ⟨0, rfl⟩
  | bool => exact fun _ _ => ⟨0, rfl⟩
  | int h1 h2 => exact fun _ _ => ⟨0, rfl⟩
  | long h1 h2 _ => exact fun _ _ => ⟨0, rfl⟩
  | float h1 h2 _ => exact fun _ _ => ⟨0, rfl⟩
  | double h1 h2 => exact fun _ _ => ⟨0, rfl⟩
  | bytes h => exact fun _ hs => ⟨0, rfl, hs⟩
  | string => exact fun _ hs => ⟨0, rfl, hs⟩
  | @enum q d syms e s i h1 h2 h3 =>
    intro _ _
    have hi := (List.getElem?_eq_some_iff.1 h3).1
    have := enum_small hi (he q d syms e h1 h2)
    rw [show BitVec.ofInt 32 (i : Int) = BitVec.ofNat 32 i by simp] at this
    exact ⟨0, q, d, syms, e, rfl, h1, h2, this⟩
  | @fixed q d n s h1 h2 h3 h4 _ =>
    intro _ _
    exact ⟨0, q, d, rfl, h1, by rw [h2, ← h4, List.length_map]⟩
  | @array js t vs h1 _ ih =>
    intro ht hs
    obtain ⟨L, hL⟩ := bound_list (fun L v => HasTy env L v t) (fun a n m hn h => hasTy_mono hn _ _ h) vs (by
      intro v hv
      obtain ⟨i, hi, rfl⟩ := List.getElem_of_mem hv
      exact ih i js[i] vs[i] (by simp [h1, hi]) (by simp [hi]) ht (allSmall_mem hs hv))
    exact ⟨max L vs.length, t, rfl, by omega, allHaveTy_iff.2 fun v hv => hasTy_mono (by omega) _ _ (hL v hv)⟩
  | @map kvs t vs h1 h2 _ _ ih =>
    intro ht hs
    generalize hm : mapOf ((kvs.map fun kv => utf8 kv.1).zip vs) = m at hs
    obtain ⟨L, hL⟩ := bound_list (fun L (x : List Byte × Val) => HasTy env L x.2 t) (fun a n m hn h => hasTy_mono hn _ _ h) m (by
      rintro ⟨k, v⟩ hv
      have hmem : (k, v) ∈ (kvs.map fun kv => utf8 kv.1).zip vs := by
        rw [← hm] at hv
        rcases mapInserts_mem hv with hv | hv
        · exact hv
        · cases hv
      obtain ⟨i, hi⟩ := List.mem_iff_getElem?.1 hmem
      have hvi : vs[i]? = some v := by
        rw [List.getElem?_zip_eq_some] at hi
        exact hi.2
      have hlt := (List.getElem?_eq_some_iff.1 hvi).1
      exact ih i kvs[i] v (by simp [h2, hlt]) hvi ht (entriesSmall_mem hs hv).2)
    refine ⟨max L m.length, t, rfl, by omega, hm ▸ sorted_mapOf _, entriesHaveTy_iff.2 fun x hx => ?_⟩
    exact ⟨(entriesSmall_mem hs hx).1, hasTy_mono (by omega) _ _ (hL x hx)⟩
  | @unionNull ts h =>
    intro ht _
    refine ⟨0, ts, rfl, ?_, (short_union ht).1⟩
    simp only [Ty.nullable, List.any_eq_true]
    exact ⟨.null, List.mem_of_getElem? h, rfl⟩
  | @union j ts t v h1 h2 _ ih =>
    intro ht hs
    have ht := short_union ht
    obtain ⟨L, hL⟩ := ih (allShort_mem ht.2 (List.mem_of_getElem? h1)) hs
    refine ⟨L, ts, t, rfl, h1, ht.1, ?_, hL⟩
    cases t <;> first | rfl | exact absurd rfl h2
  | @record kvs q d fs vs h1 h2 h3 h4 h5 h6 _ _ ih =>
    intro ht hs
    obtain ⟨L, hL⟩ := bound_list (fun L (x : Field × Val) => HasTy env L x.2 x.1.ty) (fun a n m hn h => hasTy_mono hn _ _ h)
        (fs.zip vs) (by
      rintro ⟨f, v⟩ hv
      obtain ⟨i, hi⟩ := List.mem_iff_getElem?.1 hv
      rw [List.getElem?_zip_eq_some] at hi
      obtain ⟨hi1, hi2⟩ := hi
      obtain ⟨j, hj⟩ := Option.isSome_iff_exists.1 (h6 f (List.mem_of_getElem? hi1))
      exact ih i f v j hi1 hi2 hj (hf q d fs f h1 h2 (List.mem_of_getElem? hi1)) (allSmall_mem hs (List.mem_of_getElem? hi2)))
    refine ⟨L, q, d, fs, rfl, h1, h2, fieldsHaveTy_of h5 fun i f v hi hv => hL (f, v) ?_⟩
    exact List.mem_iff_getElem?.2 ⟨i, List.getElem?_zip_eq_some.2 ⟨hi, hv⟩⟩

end Verif
