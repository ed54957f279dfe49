import Verif.Gen.FilesProof
import Verif.Props.Parser
/-
C58: Go names of fields, types and enum symbols.
C59: every definition of the schema files ends up in a generated file.
-/
namespace Verif.Props
open Verif Spec
set_option linter.unusedSimpArgs false
set_option linter.unusedVariables false

/-! ### C58 -/

/-- A legal field name gives an exported Go field, and never the name of a method of the struct but
for two of them. Missing: names with a digit first after underscores, and the methods `HintSize` and
`SetUnionElem`, see `underscore_field`, `digit_field` and `method_field`. -/
theorem field_name_exported_partial (nm : Namer) (s : Str) (h : LegalName s) (hl : LetterFirst s) :
    Exported (fieldGoName nm s) ∧
    ∀ m ∈ recordMethods, fieldGoName nm s = m → m = "HintSize".toList ∨ m = "SetUnionElem".toList := by
  have he := publicName_plain nm (legal_chars h) hl
  unfold fieldGoName
  by_cases hi : nm.publicName s ∈ invalidFieldNames
  · rw [if_pos hi]
    refine ⟨?_, ?_⟩
    · refine ⟨by decide, ?_⟩
      intro x hx
      have hx' : x ∈ "ield_".toList ++ nm.publicName s := hx
      rw [List.mem_append] at hx'
      rcases hx' with hx | hx
      · exact (by decide : ∀ x ∈ "ield_".toList, NameChar x) x hx
      · revert he hx
        generalize nm.publicName s = p
        intro he hx
        cases p with
        | nil => exact he.elim
        | cons c cs =>
          rw [List.mem_cons] at hx
          rcases hx with rfl | hx
          · exact .inl (.inl he.1)
          · exact he.2 x hx
    · intro m hm e
      have h1 : ∀ m ∈ recordMethods, ∀ i ∈ invalidFieldNames, "Field_".toList ++ i ≠ m := by decide +kernel
      exact absurd e (h1 m hm _ hi)
  · rw [if_neg hi]
    refine ⟨he, ?_⟩
    intro m hm e
    have h1 : ∀ m ∈ recordMethods, m ∉ invalidFieldNames → m = "HintSize".toList ∨ m = "SetUnionElem".toList := by
      decide +kernel
    exact h1 m hm (e ▸ hi)

example : LegalName "created_at".toList ∧ LetterFirst "created_at".toList ∧
    fieldGoName .simple "created_at".toList = "Created_at".toList ∧
    fieldGoName (.namespaced false) "created_at".toList = "CreatedAt".toList ∧
    fieldGoName .simple "schema".toList = "Field_Schema".toList :=
  ⟨by decide, ⟨[], 'c', "reated_at".toList, rfl, by simp, by decide⟩, by decide +kernel, by decide +kernel, by decide +kernel⟩

/-- A legal name made of underscores only has no Go name: the generated struct does not compile. -/
theorem underscore_field : LegalName "_".toList ∧ fieldGoName .simple "_".toList = [] := by decide +kernel

/-- After an underscore a digit comes first: not an identifier. -/
theorem digit_field : LegalName "_1".toList ∧ fieldGoName .simple "_1".toList = "1".toList ∧
    ¬ Exported (fieldGoName .simple "_1".toList) := by decide +kernel

/-- Fields `hintSize` and `setUnionElem` get the name of a method of the struct. -/
theorem method_field : fieldGoName .simple "hintSize".toList ∈ recordMethods ∧
    fieldGoName .simple "setUnionElem".toList ∈ recordMethods ∧
    LegalName "hintSize".toList ∧ LegalName "setUnionElem".toList := by decide +kernel

theorem sameWord_of {c d : Char} {cs ds : Str} (h : upperAscii c :: cs = upperAscii d :: ds) :
    SameWord (c :: cs) (d :: ds) := by
  rw [List.cons.injEq] at h
  exact ⟨c, d, cs, rfl, by rw [h.2], upper_same h.1⟩

/-- Two fields that start with a letter and do not end in an underscore get the same Go name only if
they are the same word but for the case of the first letter, or one of them is the name the generator
makes up to avoid a method. Missing: other names, see `fields_clash`. -/
theorem field_names_distinct_partial (a b : Str) (ha : Proper a) (hb : Proper b)
    (h : fieldGoName .simple a = fieldGoName .simple b) :
    SameWord a b ∨ (∃ i ∈ invalidFieldNames, SameWord a ("Field_".toList ++ i) ∧ SameWord b i) ∨
      (∃ i ∈ invalidFieldNames, SameWord b ("Field_".toList ++ i) ∧ SameWord a i) := by
  obtain ⟨c, cs, rfl, hc, hcs, hcl⟩ := proper_cases ha
  obtain ⟨d, ds, rfl, hd, hds, hdl⟩ := proper_cases hb
  have e1 : Namer.simple.publicName (c :: cs) = upperAscii c :: cs := toPublicName_cons hc hcs hcl
  have e2 : Namer.simple.publicName (d :: ds) = upperAscii d :: ds := toPublicName_cons hd hds hdl
  unfold fieldGoName at h
  rw [e1, e2] at h
  have hI : ∀ i ∈ invalidFieldNames, ∃ k ks, i = k :: ks ∧ UpperLetter k := by
    intro i hi
    have : ∀ i ∈ invalidFieldNames, Exported i := by decide +kernel
    have := this i hi
    cases i with
    | nil => exact this.elim
    | cons k ks => exact ⟨k, ks, rfl, this.1⟩
  by_cases h1 : upperAscii c :: cs ∈ invalidFieldNames <;> by_cases h2 : upperAscii d :: ds ∈ invalidFieldNames
  · rw [if_pos h1, if_pos h2] at h
    exact .inl (sameWord_of (List.append_cancel_left h))
  · rw [if_pos h1, if_neg h2] at h
    refine .inr (.inr ⟨_, h1, ?_, ?_⟩)
    · have : "Field_".toList ++ upperAscii c :: cs = 'F' :: ("ield_".toList ++ upperAscii c :: cs) := rfl
      rw [this] at h ⊢
      apply sameWord_of
      rw [← h, upper_eq (by decide : UpperLetter 'F')]
    · exact sameWord_of (by rw [upper_eq (upper_letter hc)])
  · rw [if_neg h1, if_pos h2] at h
    refine .inr (.inl ⟨_, h2, ?_, ?_⟩)
    · have : "Field_".toList ++ upperAscii d :: ds = 'F' :: ("ield_".toList ++ upperAscii d :: ds) := rfl
      rw [this] at h ⊢
      apply sameWord_of
      rw [h, upper_eq (by decide : UpperLetter 'F')]
    · exact sameWord_of (by rw [upper_eq (upper_letter hd)])
  · rw [if_neg h1, if_neg h2] at h
    exact .inl (sameWord_of h)

example : Proper "userId".toList ∧ Proper "user_id".toList ∧ Proper "field_Schema".toList ∧ Proper "schema".toList ∧
    fieldGoName .simple "field_Schema".toList = fieldGoName .simple "schema".toList := by decide +kernel

/-- Different legal names with the same Go name: the struct has the field twice and does not
compile. -/
theorem fields_clash :
    fieldGoName .simple "foo".toList = fieldGoName .simple "Foo".toList ∧
    fieldGoName .simple "foo".toList = fieldGoName .simple "_foo".toList ∧
    fieldGoName .simple "foo".toList = fieldGoName .simple "foo_".toList ∧
    fieldGoName .simple "Schema".toList = fieldGoName .simple "Field_Schema".toList ∧
    fieldGoName (.namespaced true) "foo_bar".toList = fieldGoName (.namespaced true) "fooBar".toList := by
  decide +kernel

/-- The Go name of a definition is exported, with either namer. -/
theorem type_name_exported_partial (nm : Namer) (d : PDef) (h : Dotted d.name.str) : Exported (d.goName nm) :=
  publicName_exported nm h

example : Dotted (QName.str ⟨"com.acme".toList, "order_line".toList⟩) ∧
    toPublicName (QName.str ⟨"com.acme".toList, "order_line".toList⟩) = "Order_line".toList ∧
    namespacedName true (QName.str ⟨"org.com.acme".toList, "order_line".toList⟩) = "AcmeOrderLine".toList := by
  refine ⟨?_, by decide +kernel, by decide +kernel⟩
  exact .cons (p := "com".toList) (s := "acme.order_line".toList) (by decide) ⟨[], 'c', "om".toList, rfl, by simp, by decide⟩
    (.cons (p := "acme".toList) (s := "order_line".toList) (by decide) ⟨[], 'a', "cme".toList, rfl, by simp, by decide⟩
      (.one (by decide) ⟨[], 'o', "rder_line".toList, rfl, by simp, by decide⟩))

/-- The constants of an enum are exported identifiers for all legal symbols. -/
theorem symbol_exported (nm : Namer) (type sym : Str) (ht : Exported type) (hs : LegalName sym) :
    Exported (symbolGoName nm type sym) := by
  cases type with
  | nil => exact ht.elim
  | cons c cs =>
    unfold symbolGoName
    refine publicName_plain nm ?_ ⟨[], c, cs ++ title sym, rfl, by simp, .inl ht.1⟩
    intro x hx
    simp only [List.cons_append, List.mem_cons, List.mem_append] at hx
    rcases hx with rfl | hx | hx
    · exact .inl (.inl ht.1)
    · exact ht.2 x hx
    · obtain ⟨y, hy, h⟩ := titleFrom_mem _ _ _ hx
      rcases h with rfl | rfl
      · exact legal_chars hs _ hy
      · exact upper_nameChar (legal_chars hs _ hy)

example : Exported "Suit".toList ∧ LegalName "_spades".toList ∧
    symbolGoName .simple "Suit".toList "_spades".toList = "Suit_spades".toList ∧
    symbolGoName .simple "Suit".toList "hearts".toList = "SuitHearts".toList := by decide +kernel

/-- Two symbols of one enum that start with a letter and do not end in an underscore get different
constants unless they are the same word but for the case of the first letter. Missing: other symbols,
see `symbols_clash`. -/
theorem symbol_names_distinct_partial (type a b : Str) (ht : Exported type) (ha : Proper a) (hb : Proper b)
    (h : symbolGoName .simple type a = symbolGoName .simple type b) : SameWord a b := by
  obtain ⟨c, cs, rfl, hc, hcs, hcl⟩ := proper_cases ha
  obtain ⟨d, ds, rfl, hd, hds, hdl⟩ := proper_cases hb
  have key : ∀ (c : Char) (cs : Str), Letter c → (∀ x ∈ cs, NameChar x) → (c :: cs).getLast? ≠ some '_' →
      symbolGoName .simple type (c :: cs) = type ++ upperAscii c :: cs := by
    intro c cs hc hcs hl
    have hall : ∀ x ∈ c :: cs, NameChar x := by
      intro x hx
      rw [List.mem_cons] at hx
      rcases hx with rfl | hx
      · exact .inl hc
      · exact hcs x hx
    cases type with
    | nil => exact ht.elim
    | cons t ts =>
      show toPublicName ((t :: ts) ++ title (c :: cs)) = _
      rw [title_cons hall, List.cons_append]
      have hl' : (t :: (ts ++ upperAscii c :: cs)).getLast? ≠ some '_' := by
        intro h'
        apply hl
        have e : (t :: (ts ++ upperAscii c :: cs)).getLast? = (upperAscii c :: cs).getLast? := by
          rw [← List.cons_append, List.getLast?_append]; simp [List.getLast?_cons]
        rw [e] at h'
        cases cs with
        | nil =>
          simp only [List.getLast?_singleton, Option.some.injEq] at h'
          exact absurd h' (letter_ne_underscore (.inl (upper_letter hc)))
        | cons x xs => simpa using h'
      rw [toPublicName_cons (.inl ht.1) ?_ hl', upper_eq ht.1]
      intro x hx
      rw [List.mem_append, List.mem_cons] at hx
      rcases hx with hx | rfl | hx
      · exact ht.2 x hx
      · exact .inl (.inl (upper_letter hc))
      · exact hcs x hx
  rw [key c cs hc hcs hcl, key d ds hd hds hdl] at h
  exact sameWord_of (List.append_cancel_left h)

example : Proper "HEARTS".toList ∧ Proper "hEARTS".toList ∧
    symbolGoName .simple "Suit".toList "HEARTS".toList = symbolGoName .simple "Suit".toList "hEARTS".toList ∧
    symbolGoName .simple "Suit".toList "HEARTS".toList ≠ symbolGoName .simple "Suit".toList "SPADES".toList := by
  decide +kernel

/-- Different legal symbols with the same constant, and constants of two enums that clash. -/
theorem symbols_clash :
    symbolGoName .simple "Suit".toList "A".toList = symbolGoName .simple "Suit".toList "A_".toList ∧
    symbolGoName .simple "A".toList "bC".toList = symbolGoName .simple "AB".toList "C".toList := by decide +kernel

/-! ### C59 -/

/-- The name of a generated file determines the Go name, for camel case names. -/
theorem file_name_injective_partial (a b : Str) (ha : Camel a) (hb : Camel b) (h : fileName a = fileName b) : a = b :=
  toSnake_injective ha hb (List.append_cancel_right h)

example : Camel "OrderLine2Item".toList ∧ fileName "OrderLine2Item".toList = "order_line2_item.go".toList := by
  decide +kernel

/-- Every definition in the schema files, and every container asked for, is in the package the
command writes, under the name of its type. Missing: Go names that are not camel case, shared by two
definitions, or reserved (`Array…`, `Map…`, `Union…`, `Bytes`, `…Container` next to a container): the
theorems below show that then a definition can be lost. Short union names are not covered either. -/
theorem definitions_written_partial (nm : Namer) (containers : Bool) (js : List Json) (n : NS)
    (h : parseCommand false js = .ok n)
    (camel : ∀ q d, n.find q = some d → Camel (d.goName nm))
    (distinct : ∀ q d q' d', n.find q = some d → n.find q' = some d' → d.goName nm = d'.goName nm → d = d')
    (free : ∀ q d, n.find q = some d → ¬ Reserved (d.goName nm))
    (noContainer : containers = true → ∀ q d q' d', n.find q = some d → n.find q' = some d' →
      d.goName nm ≠ d'.goName nm ++ "Container".toList) :
    ∀ q d, n.find q = some d →
      (generate nm containers n).lookup (fileName (d.goName nm)) = some (.defn d) ∧
      (containers = true → ∀ fs doc, d.kind = .record fs doc →
        (generate nm containers n).lookup (containerFileName (d.goName nm)) = some (.container d)) := by
  obtain ⟨hroots, hfind, hres, hun⟩ := command_roots h
  have hun := hun rfl
  have hplain : ∀ q d, n.find q = some d → Plain (d.goName nm) := fun q d hq => camel_plain (camel q d hq)
  have hcont : ∀ s : Str, containerFileName s = (toSnake s ++ "_container".toList) ++ ".go".toList := by
    intro s
    unfold containerFileName
    rw [List.append_assoc]; rfl
  intro q d hq
  refine ⟨?_, ?_⟩
  · refine generated_unique _ _ ?_ (.inl ?_)
    · intro b' hb'
      rcases added_cases hb' with ⟨d', hd', hf, rfl⟩ | ⟨d', hd', hc, hf, rfl⟩ | ⟨r, hr, hm⟩
      · have e := file_name_injective_partial _ _ (camel q d hq) (camel _ d' (hfind d' hd')) hf
        rw [distinct q d _ d' hq (hfind d' hd') e]
      · rw [hcont] at hf
        have e := congrArg (unsnake true) (List.append_cancel_right hf)
        rw [unsnake_snake (camel q d hq), camel_append_container _ (camel _ d' (hfind d' hd'))] at e
        exact absurd e (noContainer hc q d _ d' hq (hfind d' hd'))
      · obtain ⟨base, hf, ht⟩ := filesAll_named hplain r.children (hun r hr) (hres r hr) _ _ hm
        rw [← List.append_cancel_right hf] at ht
        exact absurd (typeFile_reserved (camel q d hq) ht) (free q d hq)
    · simp only [addedFiles, List.mem_flatMap]
      exact ⟨_, hroots q d hq, by simp [Root.files]⟩
  · intro hc fs doc hk
    refine generated_unique _ _ ?_ (.inl ?_)
    · intro b' hb'
      rcases added_cases hb' with ⟨d', hd', hf, rfl⟩ | ⟨d', hd', hc, hf, rfl⟩ | ⟨r, hr, hm⟩
      · rw [hcont] at hf
        have e := congrArg (unsnake true) (List.append_cancel_right hf).symm
        rw [unsnake_snake (camel _ d' (hfind d' hd')), camel_append_container _ (camel _ d hq)] at e
        exact absurd e (noContainer hc _ d' q d (hfind d' hd') hq)
      · rw [hcont, hcont] at hf
        have e := toSnake_injective (camel q d hq) (camel _ d' (hfind d' hd'))
          (List.append_cancel_right (List.append_cancel_right hf))
        rw [distinct q d _ d' hq (hfind d' hd') e]
      · obtain ⟨base, hf, ht⟩ := filesAll_named hplain r.children (hun r hr) (hres r hr) _ _ hm
        rw [hcont] at hf
        rw [← List.append_cancel_right hf] at ht
        exact absurd (typeFile_container (camel q d hq) ht) (free q d hq)
    · simp only [addedFiles, List.mem_flatMap]
      refine ⟨_, hroots q d hq, ?_⟩
      simp only [Root.files, PDef.containerFiles, hk, hc, if_true]
      simp

/-- A fixed type of one byte. -/
def jfixed (name : String) : Json := jobj [("name", jstr name), ("size", .num 1), ("type", jstr "fixed")]

/-- A record with one field. -/
def jrecord (name field : String) (type : Json) : Json :=
  jobj [("fields", .arr [jobj [("name", jstr field), ("type", type)]]), ("name", jstr name), ("type", jstr "record")]

def jarray (items : Json) : Json := jobj [("items", items), ("type", jstr "array")]

/-- What holds of the namespace after the command has read the files. -/
def After (short : Bool) (js : List Json) (p : NS → Bool) : Bool :=
  match parseCommand short js with
  | .ok n => p n
  | .error _ => false

theorem after_iff {short : Bool} {js : List Json} {p : NS → Bool} (h : After short js p = true) :
    ∃ n, parseCommand short js = .ok n ∧ p n = true := by
  unfold After at h
  split at h
  · rename_i n hn; exact ⟨n, hn, h⟩
  · cases h

/-- The names of the files and which definitions they hold. -/
def listing (nm : Namer) (containers : Bool) (n : NS) : List (Str × Option QName) :=
  (generate nm containers n).map fun e => (e.1, match e.2 with
    | .defn d => some d.name
    | .container d => some d.name
    | .ty _ => none)

/-- The conditions of `definitions_written_partial` met by two records and an array, with containers. -/
example : ∃ n, parseCommand false [jrecord "shop.OrderLine" "items" (jarray (jstr "int")), jrecord "shop.Order" "lines" (jarray (jstr "shop.OrderLine"))] = .ok n ∧
    (n.defs.all fun e => decide (Camel (e.2.goName .simple))) = true ∧
    (n.defs.map fun e => e.2.goName .simple) = ["OrderLine".toList, "Order".toList] ∧
    listing .simple true n =
      [("array_order_line.go".toList, none), ("order_container.go".toList, some ⟨"shop".toList, "Order".toList⟩),
       ("order.go".toList, some ⟨"shop".toList, "Order".toList⟩), ("array_int.go".toList, none),
       ("order_line_container.go".toList, some ⟨"shop".toList, "OrderLine".toList⟩),
       ("order_line.go".toList, some ⟨"shop".toList, "OrderLine".toList⟩)] := by
  obtain ⟨n, h1, h2⟩ := after_iff (short := false)
    (js := [jrecord "shop.OrderLine" "items" (jarray (jstr "int")), jrecord "shop.Order" "lines" (jarray (jstr "shop.OrderLine"))])
    (p := fun n => (n.defs.all fun e => decide (Camel (e.2.goName .simple))) &&
      decide ((n.defs.map fun e => e.2.goName .simple) = ["OrderLine".toList, "Order".toList]) &&
      decide (listing .simple true n =
        [("array_order_line.go".toList, none), ("order_container.go".toList, some ⟨"shop".toList, "Order".toList⟩),
         ("order.go".toList, some ⟨"shop".toList, "Order".toList⟩), ("array_int.go".toList, none),
         ("order_line_container.go".toList, some ⟨"shop".toList, "OrderLine".toList⟩),
         ("order_line.go".toList, some ⟨"shop".toList, "OrderLine".toList⟩)])) (by decide +kernel)
  simp only [Bool.and_eq_true, decide_eq_true_eq] at h2
  exact ⟨n, h1, h2.1.1, h2.1.2, h2.2⟩

/-- The command accepts the files, the name is defined, and no file holds the definition. -/
def Lost (nm : Namer) (containers : Bool) (js : List Json) (q : QName) : Prop :=
  ∃ n d, parseCommand false js = .ok n ∧ n.find q = some d ∧ ∀ e ∈ generate nm containers n, e.2 ≠ .defn d

theorem lost_of {nm : Namer} {containers : Bool} {js : List Json} {q : QName}
    (h : After false js (fun n => match n.find q with
      | some d => (generate nm containers n).all fun e => decide (e.2 ≠ .defn d)
      | none => false) = true) : Lost nm containers js q := by
  obtain ⟨n, h1, h2⟩ := after_iff h
  split at h2
  · rename_i d hd
    refine ⟨n, d, h1, hd, ?_⟩
    intro e he
    have := List.all_eq_true.1 h2 e he
    simpa using this
  · cases h2

/-- Two definitions of one name in different namespaces: only the last is generated. -/
theorem namespace_lost : Lost .simple false [jfixed "a.Key", jfixed "b.Key"] ⟨"a".toList, "Key".toList⟩ :=
  lost_of (by decide +kernel)

/-- Names that differ in Go but not in the name of the file. -/
theorem snake_lost : Lost .simple false [jfixed "FooBar", jfixed "foo_bar"] ⟨[], "FooBar".toList⟩ ∧
    Lost .simple false [jfixed "ID", jfixed "Id"] ⟨[], "ID".toList⟩ :=
  ⟨lost_of (by decide +kernel), lost_of (by decide +kernel)⟩

/-- The namer that takes namespaces into account does not keep all names apart. -/
theorem namespaced_lost : Lost (.namespaced false) false [jfixed "a.b.Key", jfixed "a.bKey"] ⟨"a.b".toList, "Key".toList⟩ ∧
    Lost (.namespaced true) false [jfixed "x.b.Key", jfixed "y.b.Key"] ⟨"x.b".toList, "Key".toList⟩ :=
  ⟨lost_of (by decide +kernel), lost_of (by decide +kernel)⟩

/-- The container file of a record takes the place of a definition called `…Container`. -/
theorem container_lost : Lost .simple true [jfixed "OrderContainer", jrecord "Order" "n" (jstr "int")] ⟨[], "OrderContainer".toList⟩ :=
  lost_of (by decide +kernel)

/-- The helpers of an array type take the place of a definition called `Array…`. -/
theorem array_lost : Lost .simple false [jfixed "ArrayInt", jrecord "Order" "ns" (jarray (jstr "int"))] ⟨[], "ArrayInt".toList⟩ :=
  lost_of (by decide +kernel)

/-- The command accepts the files, and of a type that needs a file none is left. -/
def TypeLost (nm : Namer) (short : Bool) (js : List Json) : Prop :=
  ∃ n f b, parseCommand short js = .ok n ∧ (f, b) ∈ addedFiles nm false n ∧ ∀ e ∈ generate nm false n, e.2 ≠ b

theorem typeLost_of {nm : Namer} {short : Bool} {js : List Json}
    (h : After short js (fun n => (addedFiles nm false n).any fun x =>
      (generate nm false n).all fun e => decide (e.2 ≠ x.2)) = true) : TypeLost nm short js := by
  obtain ⟨n, h1, h2⟩ := after_iff h
  rw [List.any_eq_true] at h2
  obtain ⟨⟨f, b⟩, h3, h4⟩ := h2
  refine ⟨n, f, b, h1, h3, ?_⟩
  intro e he
  have := List.all_eq_true.1 h4 e he
  simpa using this

/-- Two different unions with the same name: a union of an array of unions and a string, and a union
of an array of a wider union. -/
theorem union_lost : TypeLost .simple false
    [jrecord "R" "f" (.arr [jarray (.arr [jstr "int"]), jstr "string"]),
     jrecord "S" "f" (.arr [jarray (.arr [jstr "int", jstr "string"])])] := typeLost_of (by decide +kernel)

/-- With short union names, two fields of one name and different union types. -/
theorem short_union_lost : TypeLost .simple true
    [jrecord "R" "id" (.arr [jstr "null", jstr "int"]), jrecord "S" "id" (.arr [jstr "null", jstr "string"])] :=
  typeLost_of (by decide +kernel)

/-- A definition called `…Test` is written to a file that `go build` takes for a test. -/
theorem test_file : fileName (toPublicName "LoadTest".toList) = "load_test.go".toList := by decide +kernel

end Verif.Props
