import Verif.Props.Selectors
/-
C106: the types of a union as Avro allows them have distinct Go names, but for the names of definitions.
-/
set_option autoImplicit false
namespace Verif.Props
open Verif Spec Spec.Go

/-- What Avro asks of two types in a union (Specification, Unions): different primitive types, one array, one map, no union; definitions have here different Go names. -/
def MayJoin (nm : Namer) (n : NS) : PTy → PTy → Prop
  | .prim p _, .prim q _ => p ≠ q
  | .array _ _, .array _ _ => False
  | .map _ _, .map _ _ => False
  | .union _ _ _, _ => False
  | _, .union _ _ _ => False
  | .ref q, .ref r => (PTy.ref q).goName nm n ≠ (PTy.ref r).goName nm n
  | _, _ => True

/-- The Go name of a definition does not look like that of a primitive type, an array, a map, nor like a method of a union or `UnionType`. -/
structure OwnName (s : Str) : Prop where
  prim : ∀ p : Prim, s ≠ p.goName
  array : ¬ "Array".toList <+: s
  map : ¬ "Map".toList <+: s
  method : s ∉ "UnionType".toList :: unionMethodNames

theorem primNames_distinct {p q : Prim} (h : p.goName = q.goName) : p = q := by
  revert h
  cases p <;> cases q <;> first | exact fun _ => rfl | (intro h; exact absurd h (by decide +kernel))

theorem primNames_short (p : Prim) : ¬ "Array".toList <+: p.goName ∧ ¬ "Map".toList <+: p.goName := by
  cases p <;> decide +kernel

theorem array_map {s t : Str} : "Array".toList ++ s ≠ "Map".toList ++ t := by
  intro h
  have := congrArg List.head? h
  have e1 : ("Array".toList ++ s).head? = some 'A' := rfl
  have e2 : ("Map".toList ++ t).head? = some 'M' := rfl
  rw [e1, e2] at this
  exact absurd this (by decide)

theorem joined_names (nm : Namer) (n : NS) {t u : PTy} (h : MayJoin nm n t u) (ht : ∀ q, t = .ref q → OwnName (t.goName nm n)) (hu : ∀ q, u = .ref q → OwnName (u.goName nm n)) :
    t.goName nm n ≠ u.goName nm n := by
  intro e
  cases t with
  | prim p j =>
    cases u with
    | prim q j' => exact h (primNames_distinct (by simpa only [PTy.goName] using e))
    | array t j' => exact (primNames_short p).1 ⟨t.goName nm n, by simpa only [PTy.goName] using e.symm⟩
    | map t j' => exact (primNames_short p).2 ⟨t.goName nm n, by simpa only [PTy.goName] using e.symm⟩
    | union s ts d => exact h
    | ref q => exact (hu q rfl).prim p (by rw [← e, PTy.goName])
  | array s j =>
    cases u with
    | prim q j' => exact (primNames_short q).1 ⟨s.goName nm n, by simpa only [PTy.goName] using e⟩
    | array t j' => exact h
    | map t j' => exact array_map (s := s.goName nm n) (t := t.goName nm n) (by simpa only [PTy.goName] using e)
    | union s ts d => exact h
    | ref q => exact (hu q rfl).array ⟨s.goName nm n, by rw [← e, PTy.goName]⟩
  | map s j =>
    cases u with
    | prim q j' => exact (primNames_short q).2 ⟨s.goName nm n, by simpa only [PTy.goName] using e⟩
    | array t j' => exact array_map (s := t.goName nm n) (t := s.goName nm n) (by simpa only [PTy.goName] using e.symm)
    | map t j' => exact h
    | union s ts d => exact h
    | ref q => exact (hu q rfl).map ⟨s.goName nm n, by rw [← e, PTy.goName]⟩
  | union s ts d => exact h
  | ref q =>
    cases u with
    | prim p j' => exact (ht q rfl).prim p (by rw [e, PTy.goName])
    | array t j' => exact (ht q rfl).array ⟨t.goName nm n, by rw [e, PTy.goName]⟩
    | map t j' => exact (ht q rfl).map ⟨t.goName nm n, by rw [e, PTy.goName]⟩
    | union s ts d => exact h
    | ref r => exact h e

/-- C106: the struct of a union that Avro allows has no two members or methods of one name, if the definitions in it have distinct Go names that do not look like those of other types or methods.
Missing: other names of definitions, for which it does not hold (`union_primitive_clash`, `union_member_clash`, `union_method_clash`). -/
theorem allowed_union_partial (nm : Namer) (n : NS) (print : Char → Bool) (hp : Printing print) (schema : List Byte) (name : Str) (ts : List PTy) (d : List Json)
    (h : NamedTy n (.union name ts d)) (hj : ts.Pairwise (MayJoin nm n)) (hu : ∀ t ∈ ts, ∀ s ts d, t ≠ .union s ts d)
    (ho : ∀ q, PTy.ref q ∈ ts → OwnName ((PTy.ref q).goName nm n)) :
    ∃ us, tokens (cat (unionFile nm n print schema ((PTy.union name ts d).goName nm n) ((PTy.union name ts d).goType nm n) ts)) = some us ∧
      (selectorNames ((PTy.union name ts d).goName nm n) us).Nodup := by
  refine union_selectors_distinct_partial nm n print hp schema name ts d h ?_ hu fun q hq => (ho q hq).method
  rw [List.Nodup, List.pairwise_map]
  exact hj.imp_of_mem fun ht hu' hm => joined_names nm n hm (by rintro q rfl; exact ho q ht) (by rintro q rfl; exact ho q hu')

/-- A union of null, an array of strings, and a definition. -/
example : ∃ us, tokens (cat (unionFile .simple shop asciiPrint [] "UnionNullArrayStringSuit".toList "*UnionNullArrayStringSuit".toList
    [.prim .null (.str "null".toList), .array (.prim .string (.str "string".toList)) .null, .ref suitDef.name])) = some us ∧
    (selectorNames "UnionNullArrayStringSuit".toList us).Nodup := by
  have e : (PTy.union [] [.prim .null (.str "null".toList), .array (.prim .string (.str "string".toList)) .null, .ref suitDef.name] []).goName .simple shop = "UnionNullArrayStringSuit".toList := by
    decide +kernel
  have e' : (PTy.union [] [.prim .null (.str "null".toList), .array (.prim .string (.str "string".toList)) .null, .ref suitDef.name] []).goType .simple shop = "*UnionNullArrayStringSuit".toList := by
    decide +kernel
  have hg : (PTy.ref suitDef.name).goName .simple shop = "Suit".toList := by decide +kernel
  have := allowed_union_partial .simple shop asciiPrint asciiPrint_printing [] [] [.prim .null (.str "null".toList), .array (.prim .string (.str "string".toList)) .null, .ref suitDef.name] []
    (by
      simp only [NamedTy, NamedTys, true_or, and_self, and_true, true_and]
      exact ⟨suitDef, by decide +kernel, shop_dotted.2⟩)
    (by simp [MayJoin]) (by intro t ht s ts d e; subst e; simp at ht)
    (by
      intro q hq
      simp only [List.mem_cons, reduceCtorEq, List.not_mem_nil, or_false, PTy.ref.injEq, false_or] at hq
      rw [hq, hg]
      exact ⟨by intro p; cases p <;> decide +kernel, by decide +kernel, by decide +kernel, by decide +kernel⟩)
  rwa [e, e'] at this

/-! ### Records -/

theorem forgotten_name {a : Str} (ha : Proper a) {m : Char} {ms : Str} (hm : UpperLetter m) (hF : ¬ "Field_".toList <+: m :: ms) (h : fieldGoName .simple a = m :: ms) : SameWord a (m :: ms) := by
  obtain ⟨c, cs, rfl, hc, hcs, hcl⟩ := proper_cases ha
  have e1 : Namer.simple.publicName (c :: cs) = upperAscii c :: cs := toPublicName_cons hc hcs hcl
  unfold fieldGoName at h
  rw [e1] at h
  split at h
  · exact absurd ⟨_, h⟩ hF
  · exact sameWord_of (by rw [h, upper_eq hm])

/-- C106: the struct of a record has no two members or methods of one name, if the names of its fields begin with a letter and do not end in an underscore, no two differ in the case of the first letter
only, none begins with `Field_` or `field_`, and none is `hintSize` or `setUnionElem`; without `-namespaced-names`.
Missing: other fields, for which it does not hold in general (`record_field_clash`, `record_method_clash`, `fields_clash`). -/
theorem allowed_record_partial (n : NS) (print : Char → Bool) (hp : Printing print) (hn : LegalFields n) (k : Nat) (schema fp : List Byte) (d : PDef)
    (hdot : Dotted d.name.str) (fs : List PField) (doc : Str) (hk : d.kind = .record fs doc) (hdoc : ∀ c ∈ doc, forbidden c = false) (hf : ∀ f ∈ fs, Plainly n f)
    (hd : ReadableDefaults .simple n k fs) (l : List Str) (hl : recordFile .simple n print k schema fp d fs doc = .ok l)
    (hprop : ∀ f ∈ fs, Proper f.name) (hdist : fs.Pairwise fun f g => ¬ SameWord f.name g.name)
    (hfield : ∀ f ∈ fs, ∀ s, ¬ SameWord f.name ("Field_".toList ++ s))
    (hm : ∀ f ∈ fs, ¬ SameWord f.name "HintSize".toList ∧ ¬ SameWord f.name "SetUnionElem".toList) :
    ∃ us, tokens (cat l) = some us ∧ (selectorNames (d.goName .simple) us).Nodup := by
  refine record_selectors_distinct_partial .simple n print hp hn k schema fp d hdot fs doc hk hdoc hf hd l hl ?_ ?_
  · rw [List.Nodup, List.pairwise_map]
    refine hdist.imp_of_mem fun {a b} ha hb hs e => ?_
    rcases field_names_distinct_partial _ _ (hprop a ha) (hprop b hb) e with h | ⟨i, -, h, -⟩ | ⟨i, -, h, -⟩
    · exact hs h
    · exact hfield a ha i h
    · exact hfield b hb i h
  · intro f h
    exact ⟨fun e => (hm f h).1 (forgotten_name (hprop f h) (m := 'H') (ms := "intSize".toList) (by decide) (by decide +kernel) e),
      fun e => (hm f h).2 (forgotten_name (hprop f h) (m := 'S') (ms := "etUnionElem".toList) (by decide) (by decide +kernel) e)⟩

instance (c d : Char) : Decidable (SameLetter c d) := by unfold SameLetter; infer_instance

instance (a b : Str) : Decidable (SameWord a b) :=
  match a, b with
  | c :: cs, d :: ds => decidable_of_iff (cs = ds ∧ SameLetter c d) ⟨fun ⟨e, h⟩ => ⟨c, d, cs, rfl, by rw [e], h⟩, by
      rintro ⟨_, _, _, e1, e2, h⟩
      cases e1; cases e2
      exact ⟨rfl, h⟩⟩
  | [], _ => isFalse (by rintro ⟨_, _, _, e, -⟩; cases e)
  | _ :: _, [] => isFalse (by rintro ⟨_, _, _, -, e, -⟩; cases e)

/-- Fields that meet the conditions: `id`, `note` and `schema`, which is renamed. -/
example : (∀ a ∈ ["id".toList, "note".toList, "schema".toList], Proper a) ∧ ["id".toList, "note".toList, "schema".toList].Pairwise (fun a b => ¬ SameWord a b) ∧
    (∀ a ∈ ["id".toList, "note".toList, "schema".toList], ∀ s, ¬ SameWord a ("Field_".toList ++ s)) ∧
    ∀ a ∈ ["id".toList, "note".toList, "schema".toList], ¬ SameWord a "HintSize".toList ∧ ¬ SameWord a "SetUnionElem".toList := by
  refine ⟨by decide +kernel, by decide +kernel, ?_, by decide +kernel⟩
  intro a ha s hs
  obtain ⟨c, d, cs, e1, e2, h⟩ := hs
  have e3 : "Field_".toList ++ s = 'F' :: 'i' :: ("eld_".toList ++ s) := rfl
  rw [e3] at e2
  cases e2
  simp only [List.mem_cons, List.not_mem_nil, or_false] at ha
  rcases ha with rfl | rfl | rfl <;> simp at e1

end Verif.Props
