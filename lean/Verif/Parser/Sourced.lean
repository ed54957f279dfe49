import Verif.Parser.Inv
import Verif.Parser.Write
import Verif.Spec.Same
/-
What the parser builds keeps the text it was read from.
-/
set_option linter.unusedSimpArgs false
set_option linter.unusedVariables false
namespace Verif
open Spec

mutual
/-- The type keeps its text. -/
def PTy.Sourced : PTy → Prop
  | .prim p j => ∃ s, (s, p) ∈ primNames ∧ (j = .str s ∨ ∃ o : JObj, j = .obj o ∧ o.lookup "type".toList = some (.str s))
  | .array t j => t.Sourced ∧ ∃ o : JObj, j = .obj o ∧ o.lookup "type".toList = some (.str "array".toList)
  | .map t j => t.Sourced ∧ ∃ o : JObj, j = .obj o ∧ o.lookup "type".toList = some (.str "map".toList)
  | .union _ ts _ => PTy.AllSourced ts
  | .ref _ => True
def PTy.AllSourced : List PTy → Prop
  | [] => True
  | t :: ts => t.Sourced ∧ PTy.AllSourced ts
end

/-- The field keeps its text. -/
structure PField.Sourced (f : PField) : Prop where
  ty : f.ty.Sourced
  name : f.defn.lookup "name".toList = some (.str f.name)
  dflt : f.dflt = f.defn.lookup "default".toList
  aliases : OptStrings f.defn "aliases".toList f.aliases
  doc : OptAttr f.defn "doc".toList f.doc
  tags : OptAttr f.defn "golang.tags".toList f.tags

/-- The definition keeps its text. -/
structure PDef.Sourced (d : PDef) : Prop where
  plain : '.' ∉ d.name.name
  record : ∀ fs doc, d.kind = .record fs doc → d.defn.lookup "type".toList = some (.str "record".toList) ∧
    (∀ f ∈ fs, f.Sourced) ∧ AliasesOf d.name.ns d.defn d.aliases ∧ OptAttr d.defn "doc".toList doc
  enum : ∀ ss doc dflt, d.kind = .enum ss doc dflt → d.defn.lookup "type".toList = some (.str "enum".toList) ∧
    d.defn.lookup "symbols".toList = some (.arr (ss.map .str)) ∧ OptAttr d.defn "default".toList dflt ∧
    OptAttr d.defn "doc".toList doc
  fixed : ∀ size, d.kind = .fixed size → d.defn.lookup "type".toList = some (.str "fixed".toList) ∧
    FixedSize d.defn size ∧ AliasesOf d.name.ns d.defn d.aliases

theorem sourced {short : Bool} {name enc : Str} {j : Json} {t : PTy} {ds : List PDef}
    (h : Describes short name enc j t ds) : t.Sourced ∧ ∀ d ∈ ds, d.Sourced := by
  refine Describes.rec
    (motive_1 := fun _ _ _ t ds _ => t.Sourced ∧ ∀ d ∈ ds, d.Sourced)
    (motive_2 := fun _ _ _ ts ds _ => PTy.AllSourced ts ∧ ∀ d ∈ ds, d.Sourced)
    (motive_3 := fun _ _ fs ds _ => (∀ f ∈ fs, f.Sourced) ∧ ∀ d ∈ ds, d.Sourced)
    ?_ ?_ ?_ ?_ ?_ ?_ ?_ ?_ ?_ ?_ ?_ ?_ ?_ ?_ h
  · intro name enc s p hp
    exact ⟨⟨s, hp, .inl rfl⟩, by simp⟩
  · intro name enc s q _ _; exact ⟨trivial, by simp⟩
  · intro name enc js ts ds _ ih; exact ih
  · intro name enc o j t ds h1 _ _ ih; exact ⟨⟨ih.1, o, rfl, h1⟩, ih.2⟩
  · intro name enc o j t ds h1 _ _ ih; exact ⟨⟨ih.1, o, rfl, h1⟩, ih.2⟩
  · intro name enc o q qs ss doc dflt h1 h2 h3 h4 h5 h6
    refine ⟨trivial, fun d hd => ?_⟩
    simp only [List.mem_singleton] at hd
    subst hd
    refine ⟨nameOf_plain h2, ?_, ?_, ?_⟩
    · intro fs doc h; cases h
    · intro ss doc dflt h; cases h; exact ⟨h1, h3, h5, h6⟩
    · intro size h; cases h
  · intro name enc o q qs size h1 h2 h3 h4
    refine ⟨trivial, fun d hd => ?_⟩
    simp only [List.mem_singleton] at hd
    subst hd
    refine ⟨nameOf_plain h2, ?_, ?_, ?_⟩
    · intro fs doc h; cases h
    · intro ss doc dflt h; cases h
    · intro size h; cases h; exact ⟨h1, h3, h4⟩
  · intro name enc o q qs js fs doc ds h1 h2 h3 h4 h5 _ ih
    refine ⟨trivial, fun d hd => ?_⟩
    rcases List.mem_append.1 hd with hd | hd
    · exact ih.2 d hd
    simp only [List.mem_singleton] at hd
    subst hd
    refine ⟨nameOf_plain h2, ?_, ?_, ?_⟩
    · intro fs doc h; cases h; exact ⟨h1, ih.1, h4, h5⟩
    · intro ss doc dflt h; cases h
    · intro size h; cases h
  · intro name enc o s p h1 hp
    exact ⟨⟨s, hp, .inr ⟨o, rfl, h1⟩⟩, by simp⟩
  · intro name enc o s q _ _ _ _; exact ⟨trivial, by simp⟩
  · intro name enc; exact ⟨trivial, by simp⟩
  · intro name enc j js t ts ds ds' _ _ ih1 ih2
    refine ⟨⟨ih1.1, ih2.1⟩, fun d hd => ?_⟩
    rcases List.mem_append.1 hd with hd | hd
    · exact ih1.2 d hd
    · exact ih2.2 d hd
  · intro ns; exact ⟨by simp, by simp⟩
  · intro ns o js j name t aliases doc tags fs ds ds' h1 h2 _ h4 h5 h6 _ ih1 ih2
    refine ⟨fun f hf => ?_, fun d hd => ?_⟩
    · rcases List.mem_cons.1 hf with rfl | hf
      · exact ⟨ih1.1, h1, rfl, h4, h5, h6⟩
      · exact ih2.1 f hf
    · rcases List.mem_append.1 hd with hd | hd
      · exact ih1.2 d hd
      · exact ih2.2 d hd

theorem filesDescribe_sourced {short : Bool} {js : List Json} {ts : List PTy} {ds : List PDef}
    (h : FilesDescribe short js ts ds) : (∀ t ∈ ts, t.Sourced) ∧ ∀ d ∈ ds, d.Sourced := by
  induction h with
  | nil => exact ⟨by simp, by simp⟩
  | cons h1 _ ih =>
    refine ⟨fun t ht => ?_, fun d hd => ?_⟩
    · rcases List.mem_cons.1 ht with rfl | ht
      · exact (sourced h1).1
      · exact ih.1 t ht
    · rcases List.mem_append.1 hd with hd | hd
      · exact (sourced h1).2 d hd
      · exact ih.2 d hd

/-! ### maps -/

theorem lookup_setKey (k : Str) (v : Json) (o : JObj) : (setKey k v o).lookup k = some v := by
  induction o with
  | nil => simp [setKey, List.lookup]
  | cons e o ih =>
    obtain ⟨k', v'⟩ := e
    simp only [setKey]
    by_cases h : k' = k
    · rw [if_pos h]; simp [List.lookup]
    rw [if_neg h]
    by_cases h2 : k < k'
    · rw [if_pos h2]; simp [List.lookup]
    · rw [if_neg h2]
      have : (k == k') = false := by simpa using fun e => h e.symm
      simp only [List.lookup, this]
      exact ih

theorem lookup_setKey_ne {k k' : Str} (h : k' ≠ k) (v : Json) (o : JObj) : (setKey k v o).lookup k' = o.lookup k' := by
  have hb : (k' == k) = false := by simpa using h
  induction o with
  | nil => simp [setKey, List.lookup, hb]
  | cons e o ih =>
    obtain ⟨l, v'⟩ := e
    simp only [setKey]
    by_cases h1 : l = k
    · rw [if_pos h1]; subst h1; simp only [List.lookup, hb]
    rw [if_neg h1]
    by_cases h2 : k < l
    · rw [if_pos h2]; simp only [List.lookup, hb]
    · rw [if_neg h2]
      simp only [List.lookup]
      split
      · rfl
      · exact ih

theorem lookup_deleteKey (k : Str) (o : JObj) : (deleteKey k o).lookup k = none := by
  induction o with
  | nil => rfl
  | cons e o ih =>
    obtain ⟨l, v⟩ := e
    unfold deleteKey at ih ⊢
    by_cases h : l = k
    · rw [List.filter_cons_of_neg (by simpa using h)]; exact ih
    · rw [List.filter_cons_of_pos (by simpa using h)]
      have : (k == l) = false := by simpa using fun e => h e.symm
      simp only [List.lookup, this]; exact ih

theorem lookup_deleteKey_ne {k k' : Str} (h : k' ≠ k) (o : JObj) : (deleteKey k o).lookup k' = o.lookup k' := by
  induction o with
  | nil => rfl
  | cons e o ih =>
    obtain ⟨l, v⟩ := e
    unfold deleteKey at ih ⊢
    by_cases h1 : l = k
    · rw [List.filter_cons_of_neg (by simpa using h1)]
      have : (k' == l) = false := by subst h1; simpa using h
      simp only [List.lookup, this]; exact ih
    · rw [List.filter_cons_of_pos (by simpa using h1)]
      simp only [List.lookup]
      split
      · rfl
      · exact ih

end Verif
