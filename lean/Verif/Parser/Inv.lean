import Verif.Parser.Resolve
/-
Taking schema documents apart.
-/
set_option linter.unusedSimpArgs false
set_option linter.unusedVariables false
namespace Verif
open Spec

section
variable {short : Bool} {name enc : Str} {o : List (Str × Json)} {t : PTy} {ds : List PDef}

theorem Spec.Describes.array_inv (h : Describes short name enc (.obj o) t ds)
    (ht : o.lookup "type".toList = some (.str "array".toList)) :
    ∃ j u, o.lookup "items".toList = some j ∧ Describes short name enc j u ds ∧ t = .array u (.obj o) := by
  cases h with
  | array h1 h2 h3 => exact ⟨_, _, h2, h3, rfl⟩
  | map h1 => rw [h1] at ht; simp at ht
  | enum h1 => rw [h1] at ht; simp at ht
  | fixed h1 => rw [h1] at ht; simp at ht
  | record h1 => rw [h1] at ht; simp at ht
  | primObject h1 hp => rw [h1] at ht; cases ht; exact absurd hp (keyword_not_prim (by decide) _)
  | namedObject h1 hp => rw [h1] at ht; cases ht; exact absurd (by decide) hp

theorem Spec.Describes.map_inv (h : Describes short name enc (.obj o) t ds)
    (ht : o.lookup "type".toList = some (.str "map".toList)) :
    ∃ j u, o.lookup "values".toList = some j ∧ Describes short name enc j u ds ∧ t = .map u (.obj o) := by
  cases h with
  | map h1 h2 h3 => exact ⟨_, _, h2, h3, rfl⟩
  | array h1 => rw [h1] at ht; simp at ht
  | enum h1 => rw [h1] at ht; simp at ht
  | fixed h1 => rw [h1] at ht; simp at ht
  | record h1 => rw [h1] at ht; simp at ht
  | primObject h1 hp => rw [h1] at ht; cases ht; exact absurd hp (keyword_not_prim (by decide) _)
  | namedObject h1 hp => rw [h1] at ht; cases ht; exact absurd (by decide) hp

theorem Spec.Describes.enum_inv (h : Describes short name enc (.obj o) t ds)
    (ht : o.lookup "type".toList = some (.str "enum".toList)) :
    ∃ q qs ss doc dflt, NameOf enc o q ∧ o.lookup "symbols".toList = some (.arr (ss.map .str)) ∧ t = .ref q ∧
      ds = [⟨q, qs, .enum ss doc dflt, o⟩] := by
  cases h with
  | enum h1 h2 h3 h4 h5 h6 => exact ⟨_, _, _, _, _, h2, h3, rfl, rfl⟩
  | array h1 => rw [h1] at ht; simp at ht
  | map h1 => rw [h1] at ht; simp at ht
  | fixed h1 => rw [h1] at ht; simp at ht
  | record h1 => rw [h1] at ht; simp at ht
  | primObject h1 hp => rw [h1] at ht; cases ht; exact absurd hp (keyword_not_prim (by decide) _)
  | namedObject h1 hp => rw [h1] at ht; cases ht; exact absurd (by decide) hp

theorem Spec.Describes.fixed_inv (h : Describes short name enc (.obj o) t ds)
    (ht : o.lookup "type".toList = some (.str "fixed".toList)) :
    ∃ q qs size, NameOf enc o q ∧ FixedSize o size ∧ t = .ref q ∧ ds = [⟨q, qs, .fixed size, o⟩] := by
  cases h with
  | fixed h1 h2 h3 h4 => exact ⟨_, _, _, h2, h3, rfl, rfl⟩
  | array h1 => rw [h1] at ht; simp at ht
  | map h1 => rw [h1] at ht; simp at ht
  | enum h1 => rw [h1] at ht; simp at ht
  | record h1 => rw [h1] at ht; simp at ht
  | primObject h1 hp => rw [h1] at ht; cases ht; exact absurd hp (keyword_not_prim (by decide) _)
  | namedObject h1 hp => rw [h1] at ht; cases ht; exact absurd (by decide) hp

theorem Spec.Describes.record_inv (h : Describes short name enc (.obj o) t ds)
    (ht : o.lookup "type".toList = some (.str "record".toList)) :
    ∃ q qs js fs doc ds', NameOf enc o q ∧ o.lookup "fields".toList = some (.arr js) ∧
      DescribesFields short q.ns js fs ds' ∧ t = .ref q ∧ ds = ds' ++ [⟨q, qs, .record fs doc, o⟩] := by
  cases h with
  | record h1 h2 h3 h4 h5 h6 => exact ⟨_, _, _, _, _, _, h2, h3, h6, rfl, rfl⟩
  | array h1 => rw [h1] at ht; simp at ht
  | map h1 => rw [h1] at ht; simp at ht
  | enum h1 => rw [h1] at ht; simp at ht
  | fixed h1 => rw [h1] at ht; simp at ht
  | primObject h1 hp => rw [h1] at ht; cases ht; exact absurd hp (keyword_not_prim (by decide) _)
  | namedObject h1 hp => rw [h1] at ht; cases ht; exact absurd (by decide) hp

theorem prim_unique {s : Str} {p p' : Prim} (h : (s, p) ∈ primNames) (h' : (s, p') ∈ primNames) : p = p' := by
  have := (primNamed_iff.2 h).symm.trans (primNamed_iff.2 h'); cases this; rfl

theorem Spec.Describes.prim_inv {s : Str} {p : Prim} (h : Describes short name enc (.obj o) t ds) (hp : (s, p) ∈ primNames)
    (ht : o.lookup "type".toList = some (.str s)) : t = .prim p (.obj o) ∧ ds = [] := by
  have hk : ∀ {s p}, (s, p) ∈ primNames → s ∈ keywords → False := fun h h' => keyword_not_prim h' _ h
  cases h with
  | primObject h1' hp' => rw [ht] at h1'; cases h1'; rw [prim_unique hp hp']; exact ⟨rfl, rfl⟩
  | namedObject h1' _ hn => rw [ht] at h1'; cases h1'; exact absurd hp (hn p)
  | array h1' => rw [ht] at h1'; cases h1'; exact (hk hp (by decide)).elim
  | map h1' => rw [ht] at h1'; cases h1'; exact (hk hp (by decide)).elim
  | enum h1' => rw [ht] at h1'; cases h1'; exact (hk hp (by decide)).elim
  | fixed h1' => rw [ht] at h1'; cases h1'; exact (hk hp (by decide)).elim
  | record h1' => rw [ht] at h1'; cases h1'; exact (hk hp (by decide)).elim
end

theorem nameOf_unique {enc : Str} {o : List (Str × Json)} {q q' : QName} (h : NameOf enc o q) (h' : NameOf enc o q') :
    q = q' := by
  have := (avroName_iff.2 h).symm.trans (avroName_iff.2 h'); cases this; rfl

theorem fixedSize_unique {o : List (Str × Json)} {a b : Int} (h : FixedSize o a) (h' : FixedSize o b) : a = b := by
  have hs := (getInt_iff.2 h).symm.trans (getInt_iff.2 h')
  cases hs; rfl

theorem fullName_unique {enc s : Str} {q q' : QName} (h : FullName enc s q) (h' : FullName enc s q') : q = q' :=
  (parseAvroName_iff.2 h).symm.trans (parseAvroName_iff.2 h')

theorem strs_inj {l : List Str} {l' : List Str} (h : l.map Json.str = l'.map Json.str) : l = l' := by
  have := (strings_iff (k := [])).2 h
  rw [(strings_iff (k := [])).2 rfl] at this
  cases this; rfl

theorem nameOf_plain {enc : Str} {o : List (Str × Json)} {q : QName} (h : NameOf enc o q) : '.' ∉ q.name := by
  obtain ⟨_, _, _, _, h⟩ := h
  cases h <;> assumption

theorem describes_plain {short : Bool} {name enc : Str} {j : Json} {t : PTy} {ds : List PDef}
    (h : Describes short name enc j t ds) : ∀ d ∈ ds, '.' ∉ d.name.name := by
  refine Describes.rec
    (motive_1 := fun _ _ _ _ ds _ => ∀ d ∈ ds, '.' ∉ d.name.name)
    (motive_2 := fun _ _ _ _ ds _ => ∀ d ∈ ds, '.' ∉ d.name.name)
    (motive_3 := fun _ _ _ ds _ => ∀ d ∈ ds, '.' ∉ d.name.name)
    ?_ ?_ ?_ ?_ ?_ ?_ ?_ ?_ ?_ ?_ ?_ ?_ ?_ ?_ h
  · intro name enc s p _ d hd; cases hd
  · intro name enc s q _ _ d hd; cases hd
  · intro name enc js ts ds _ ih; exact ih
  · intro name enc o j t ds _ _ _ ih; exact ih
  · intro name enc o j t ds _ _ _ ih; exact ih
  · intro name enc o q qs ss doc dflt _ hq _ _ _ _ d hd
    simp only [List.mem_singleton] at hd
    subst hd
    exact nameOf_plain hq
  · intro name enc o q qs size _ hq _ h4 d hd
    simp only [List.mem_singleton] at hd
    subst hd
    exact nameOf_plain hq
  · intro name enc o q qs js fs doc ds _ hq _ h4 _ _ ih d hd
    simp only [List.mem_append, List.mem_singleton] at hd
    rcases hd with hd | rfl
    · exact ih d hd
    · exact nameOf_plain hq
  · intro name enc o s p _ _ d hd; cases hd
  · intro name enc o s q _ _ _ _ d hd; cases hd
  · intro name enc d hd; cases hd
  · intro name enc j js t ts ds ds' _ _ ih1 ih2 d hd
    rcases List.mem_append.1 hd with hd | hd
    · exact ih1 d hd
    · exact ih2 d hd
  · intro ns d hd; cases hd
  · intro ns o js j name t al doc tags fs ds ds' _ _ _ _ _ _ _ ih1 ih2 d hd
    rcases List.mem_append.1 hd with hd | hd
    · exact ih1 d hd
    · exact ih2 d hd

end Verif
