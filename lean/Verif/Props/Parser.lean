import Verif.Parser.Resolve
import Verif.Compiler.WF
import Verif.Spec.Reach
/-
C54: names resolve by Avro's namespace rules.
C55: a parsed schema is fully resolved.
C56: a name has one definition.
C64: the aliases of a definition are in the namespace of the definition.
C65: the order of the schema files does not matter.
-/
namespace Verif.Props
open Verif Spec
set_option linter.unusedSimpArgs false
set_option linter.unusedVariables false

/-! ### C54 -/

/-- A dotted name denotes itself, whatever the enclosing namespace. -/
theorem name_dotted (enclosing ns n : Str) (h : '.' ∉ n) : parseAvroName enclosing (ns ++ '.' :: n) = ⟨ns, n⟩ :=
  parseAvroName_iff.2 (.dotted ns n h)

/-- A name without dots is in the enclosing namespace. -/
theorem name_plain (enclosing n : Str) (h : '.' ∉ n) : parseAvroName enclosing n = ⟨enclosing, n⟩ :=
  parseAvroName_iff.2 (.plain n h)

/-- There are no other names. -/
theorem name_cases (s : Str) : '.' ∉ s ∨ ∃ ns n, '.' ∉ n ∧ s = ns ++ '.' :: n := plain_or_dotted s

/-- Printing a full name and parsing it again gives the name back, unless it has no namespace and
stands in one: then it is taken for a name of that namespace. -/
theorem name_reparsed (enclosing : Str) (q : QName) (h : '.' ∉ q.name) :
    parseAvroName enclosing q.str = q ↔ (q.ns ≠ [] ∨ enclosing = []) := by
  obtain ⟨ns, n⟩ := q
  unfold QName.str
  by_cases hn : ns = []
  · subst hn
    rw [if_pos rfl, name_plain enclosing n h]
    simp
  · rw [if_neg hn, name_dotted enclosing ns n h]
    simp [hn]

/-- The parts of a name the parser has built are never dotted at the end, so it can be printed. -/
theorem parsed_name_plain (enclosing s : Str) : '.' ∉ (parseAvroName enclosing s).name := by
  rcases plain_or_dotted s with h | ⟨ns, n, h, rfl⟩
  · rw [name_plain _ _ h]; exact h
  · rw [name_dotted _ _ _ h]; exact h

/-- The full name of a definition: a dotted `name` wins over `namespace`, `namespace` over the
enclosing one. -/
theorem definition_named (o : JObj) (enclosing : Str) (q : QName) :
    avroName o enclosing = .ok q ↔ NameOf enclosing o q := avroName_iff

example : parseAvroName "org.foo".toList "X".toList = ⟨"org.foo".toList, "X".toList⟩ ∧
    parseAvroName "org.foo".toList "a.b.X".toList = ⟨"a.b".toList, "X".toList⟩ ∧
    QName.str ⟨"a.b".toList, "X".toList⟩ = "a.b.X".toList := by decide +kernel

/-! ### C55 -/

mutual
theorem mentions_erase : ∀ (t : PTy) (q : QName), TyMentions t.erase q → Mentions t q
  | .prim p _, q, h => by cases p <;> simp only [PTy.erase, Prim.ty] at h <;> cases h
  | .array t _, q, h => by simp only [PTy.erase] at h; cases h; exact .array (mentions_erase t q (by assumption))
  | .map t _, q, h => by simp only [PTy.erase] at h; cases h; exact .map (mentions_erase t q (by assumption))
  | .ref _, q, h => by simp only [PTy.erase] at h; cases h; exact .ref
  | .union _ ts _, q, h => by
    simp only [PTy.erase] at h
    cases h with
    | union h1 h2 =>
      obtain ⟨t, h3, h4⟩ := mentions_erases ts _ h1 q h2
      exact .union h3 h4
theorem mentions_erases : ∀ (ts : List PTy) (u : Ty), u ∈ PTy.erases ts → ∀ q, TyMentions u q → ∃ t ∈ ts, Mentions t q
  | [], u, h, q, hq => by simp [PTy.erases] at h
  | t :: ts, u, h, q, hq => by
    have h1 := mentions_erase t
    have h2 := mentions_erases ts
    simp only [PTy.erases, List.mem_cons] at h
    rcases h with rfl | h
    · exact ⟨t, by simp, h1 q hq⟩
    · obtain ⟨t', h3, h4⟩ := h2 u h q hq
      exact ⟨t', by simp [h3], h4⟩
end

/-- What `ParseSchema` accepts and what it makes of it: the document describes a type and some
definitions by the rules of `Spec.Describes`, no name stands for two definitions, every name mentioned
is defined, and the result is that type with that table of definitions. -/
theorem parse_means (j : Json) (s : Schema) (h : parseSchema j = .ok s) :
    ∃ t ds, Describes false "topLevel".toList [] j t ds ∧ Compatible ds ∧ Complete t ds ∧
      s.root = t.erase ∧
      ∀ q d, s.env.find q = some d ↔ ∃ p ∈ ds, KnownAs p q ∧ d = p.erase := by
  unfold parseSchema at h
  split at h
  · cases h
  rename_i t n h1
  split at h
  · cases h
  rename_i h2
  cases h
  obtain ⟨ds, n1, h3, h4, rfl⟩ := typeForSchema_iff.1 h1
  have hok : (registerAll {} ds).1 = .ok () := by rw [h4]
  have hh := ((holds_empty false).registerAll ds).2 hok
  have ht : Tops (registerAll {} ds).2 [] := Tops.registerAll ⟨fun t => by simp⟩
  rw [h4] at hh ht
  have hh' := hh.1.addFile t
  have hc := (resolve_complete hh' (ht.addFile t)).1 h2
  simp only [List.nil_append] at hc hh'
  refine ⟨t, ds, h3, hh'.compatible, completeAll_one.1 hc, rfl, fun q d => ?_⟩
  rw [env_find, Option.map_eq_some_iff]
  constructor
  · rintro ⟨p, hp, rfl⟩
    obtain ⟨h5, h6⟩ := (hh'.find q p).1 hp
    exact ⟨p, h5, h6, rfl⟩
  · rintro ⟨p, h5, h6, rfl⟩
    exact ⟨p, (hh'.find q p).2 ⟨h5, h6⟩, rfl⟩

/-- Every such document is accepted. -/
theorem parse_accepts (j : Json) (t : PTy) (ds : List PDef)
    (h : Describes false "topLevel".toList [] j t ds) (hc : Compatible ds) (hr : Complete t ds) :
    ∃ s, parseSchema j = .ok s := by
  have h0 := (holds_empty false).registerAll ds
  have hok := h0.1.2 (by simpa using hc)
  have hh := h0.2 hok
  have ht : Tops (registerAll {} ds).2 [] := Tops.registerAll ⟨fun t => by simp⟩
  rcases hr' : registerAll {} ds with ⟨r, n1⟩
  rw [hr'] at hok hh ht
  simp only at hok
  subst hok
  have hh' := hh.1.addFile t
  have hres := (resolve_complete hh' (ht.addFile t)).2 (completeAll_one.2 (by simpa using hr))
  dsimp only at hres
  unfold parseSchema
  rw [typeForSchema_iff.2 ⟨ds, n1, h, hr', rfl⟩]
  dsimp only
  rw [hres]
  exact ⟨_, rfl⟩

/-- A document that is not described by the rules, that defines a name twice or that leaves one
undefined is refused with an error; parsing always ends. -/
theorem parse_refuses (j : Json)
    (h : ∀ t ds, Describes false "topLevel".toList [] j t ds → ¬ (Compatible ds ∧ Complete t ds)) :
    ∃ e, parseSchema j = .error e ∧ e ≠ .deep := by
  cases hp : parseSchema j with
  | ok s =>
    obtain ⟨t, ds, h1, h2, h3, -⟩ := parse_means j s hp
    exact absurd ⟨h2, h3⟩ (h t ds h1)
  | error e =>
    refine ⟨e, rfl, ?_⟩
    rintro rfl
    unfold parseSchema at hp
    have h1 := typeForSchema_notDeep (n := {}) (j := j)
    split at hp
    · rename_i h2; rw [h2] at h1; exact h1 (by cases hp; rfl)
    split at hp
    · rename_i h2
      obtain ⟨q, h3, -⟩ := resolveRoots_error h2
      cases hp; cases h3
    · cases hp

/-- Every named type met when following a parsed schema has its definition. -/
theorem parse_resolved (j : Json) (s : Schema) (h : parseSchema j = .ok s) (q : QName) (hq : Reachable s q) :
    ∃ d, s.env.find q = some d := by
  obtain ⟨t, ds, h1, h2, h3, h4, h5⟩ := parse_means j s h
  have hdef : ∀ q, (∃ d ∈ ds, KnownAs d q) → ∃ d, s.env.find q = some d :=
    fun q ⟨d, hd, hk⟩ => ⟨d.erase, (h5 q _).2 ⟨d, hd, hk, rfl⟩⟩
  cases hq with
  | root hm =>
    rw [h4] at hm
    exact hdef q (h3.1 q (mentions_erase _ _ hm))
  | field _ hd hk hf hm =>
    obtain ⟨p, hp, -, rfl⟩ := (h5 _ _).1 hd
    unfold PDef.erase at hk
    simp only at hk
    split at hk
    · rename_i fs doc hpk
      cases hk
      obtain ⟨f', hf', rfl⟩ := List.mem_map.1 hf
      exact hdef q (h3.2 p hp fs doc hpk f' hf' q (mentions_erase _ _ hm))
    · cases hk
    · cases hk

/-- In a parsed schema a definition has one name. -/
theorem parse_names (j : Json) (s : Schema) (h : parseSchema j = .ok s) : NamesOK s.env := by
  obtain ⟨t, ds, h1, h2, h3, h4, h5⟩ := parse_means j s h
  intro q q' d d' hd hd' hn
  obtain ⟨p, hp, hk, rfl⟩ := (h5 _ _).1 hd
  obtain ⟨p', hp', hk', rfl⟩ := (h5 _ _).1 hd'
  have : p.name = p'.name := hn
  rw [h2.2 p hp p' hp' p.name (.inl rfl) (.inl this)]

/-! ### C56 -/

/-- A sequence of registrations in an empty namespace is accepted exactly if no name stands for two
different definitions and no definition repeats a name. -/
theorem registrations_accepted (short : Bool) (ds : List PDef) :
    (registerAll { shortUnions := short } ds).1 = .ok () ↔ Compatible ds := by
  simpa using ((holds_empty short).registerAll ds).1

/-- Afterwards a name denotes the definition that has it as its name or alias. -/
theorem registered_found (short : Bool) (ds : List PDef)
    (h : (registerAll { shortUnions := short } ds).1 = .ok ()) (q : QName) (d : PDef) :
    (registerAll { shortUnions := short } ds).2.find q = some d ↔ d ∈ ds ∧ KnownAs d q := by
  simpa using (((holds_empty short).registerAll ds).2 h).1.find q d

/-- Registering another definition under a name already taken is an error and changes nothing. -/
theorem name_conflict (n : NS) (d d' : PDef) (h : n.find d.name = some d') (hne : d' ≠ d) :
    register n d = (.error (.conflict d.name), n) := by
  unfold register
  rw [h]
  simp [hne]

/-- Registering the same definition again is accepted and changes nothing. -/
theorem same_again (n : NS) (d : PDef) (h : n.find d.name = some d) : register n d = (.ok (), n) := by
  unfold register
  rw [h]
  simp

/-- An alias already taken is an error. -/
theorem alias_conflict (n : NS) (d d' : PDef) (a : QName) (h : n.find d.name = none) (ha : a ∈ d.aliases)
    (hd : n.find a = some d') : ∃ e, (register n d).1 = .error e := by
  unfold register
  rw [h]
  cases hr : (registerAliases d d.aliases { n with defs := n.defs ++ [(d.name, d)], roots := n.roots ++ [.defn d] }).1 with
  | error e => exact ⟨e, rfl⟩
  | ok u =>
    have := (registerAliases_ok (Prod.ext hr rfl)).1 a ha
    have h2 : NS.find { n with defs := n.defs ++ [(d.name, d)], roots := n.roots ++ [.defn d] } a =
      (n.find a).or (if a = d.name then some d else none) := lookup_snoc _ _ _ _
    rw [h2, hd] at this
    cases this

/-- No registration, accepted or not, changes what a name already denotes. -/
theorem names_stay (n : NS) (d d' : PDef) (q : QName) (h : n.find q = some d) : (register n d').2.find q = some d := by
  have key : ∀ (as : List QName) (m : NS), m.find q = some d → (registerAliases d' as m).2.find q = some d := by
    intro as
    induction as with
    | nil => intro m hm; exact hm
    | cons a as ih =>
      intro m hm
      simp only [registerAliases]
      split
      · exact hm
      · refine ih _ ?_
        have h2 : NS.find { m with defs := m.defs ++ [(a, d')] } q =
          (m.find q).or (if q = a then some d' else none) := lookup_snoc _ _ _ _
        rw [h2, hm]; rfl
  unfold register
  split
  · split <;> exact h
  · refine key _ _ ?_
    have h2 : NS.find { n with defs := n.defs ++ [(d'.name, d')], roots := n.roots ++ [.defn d'] } q =
      (n.find q).or (if q = d'.name then some d' else none) := lookup_snoc _ _ _ _
    rw [h2, h]; rfl

/-! ### C64 -/

/-- The aliases of records and fixeds are in the namespace of the definition. -/
theorem aliases_placed_partial {short : Bool} {name enc : Str} {j : Json} {t : PTy} {ds : List PDef}
    (h : Describes short name enc j t ds) (d : PDef) (hd : d ∈ ds) (hk : ∀ ss doc dflt, d.kind ≠ .enum ss doc dflt) :
    AliasesOf d.name.ns d.defn d.aliases := by
  revert d hd hk
  refine Describes.rec
    (motive_1 := fun _ _ _ _ ds _ => ∀ d ∈ ds, (∀ ss doc dflt, d.kind ≠ .enum ss doc dflt) → AliasesOf d.name.ns d.defn d.aliases)
    (motive_2 := fun _ _ _ _ ds _ => ∀ d ∈ ds, (∀ ss doc dflt, d.kind ≠ .enum ss doc dflt) → AliasesOf d.name.ns d.defn d.aliases)
    (motive_3 := fun _ _ _ ds _ => ∀ d ∈ ds, (∀ ss doc dflt, d.kind ≠ .enum ss doc dflt) → AliasesOf d.name.ns d.defn d.aliases)
    ?_ ?_ ?_ ?_ ?_ ?_ ?_ ?_ ?_ ?_ ?_ ?_ ?_ ?_ h
  · intro name enc s p _ d hd; cases hd
  · intro name enc s q _ _ d hd; cases hd
  · intro name enc js ts ds _ ih; exact ih
  · intro name enc o j t ds _ _ _ ih; exact ih
  · intro name enc o j t ds _ _ _ ih; exact ih
  · intro name enc o q qs ss doc dflt _ _ _ _ _ _ d hd hk
    simp only [List.mem_singleton] at hd
    subst hd
    exact absurd rfl (hk ss doc dflt)
  · intro name enc o q qs size _ _ _ h4 d hd hk
    simp only [List.mem_singleton] at hd
    subst hd
    exact h4
  · intro name enc o q qs js fs doc ds _ _ _ h4 _ _ ih d hd hk
    simp only [List.mem_append, List.mem_singleton] at hd
    rcases hd with hd | rfl
    · exact ih d hd hk
    · exact h4
  · intro name enc o s p _ _ d hd; cases hd
  · intro name enc o s q _ _ _ _ d hd; cases hd
  · intro name enc d hd; cases hd
  · intro name enc j js t ts ds ds' _ _ ih1 ih2 d hd hk
    rcases List.mem_append.1 hd with hd | hd
    · exact ih1 d hd hk
    · exact ih2 d hd hk
  · intro ns d hd; cases hd
  · intro ns o js j name t al doc tags fs ds ds' _ _ _ _ _ _ _ ih1 ih2 d hd hk
    rcases List.mem_append.1 hd with hd | hd
    · exact ih1 d hd hk
    · exact ih2 d hd hk

/-- A JSON string. -/
abbrev jstr (s : String) : Json := .str s.toList
/-- A JSON object. -/
abbrev jobj (l : List (String × Json)) : Json := .obj (l.map fun e => (e.1.toList, e.2))

/-- The enum `b.E` with the alias `F`, within the namespace `a`. -/
def enumWithin : Json := jobj [("fields", .arr [jobj [("name", jstr "e"), ("type",
  jobj [("aliases", .arr [jstr "F"]), ("name", jstr "b.E"), ("symbols", .arr [jstr "X"]), ("type", jstr "enum")])]]),
  ("name", jstr "a.R"), ("type", jstr "record")]

/-- The alias of an enum is put into the namespace around the enum: `F`, an alias of `b.E`, is found
as `a.F` and not as `b.F`. -/
theorem enum_alias_elsewhere : ∃ s d, parseSchema enumWithin = .ok s ∧
    s.env.find ⟨"b".toList, "E".toList⟩ = some d ∧ d.aliases = [⟨"a".toList, "F".toList⟩] ∧
    s.env.find ⟨"a".toList, "F".toList⟩ = some d ∧ s.env.find ⟨"b".toList, "F".toList⟩ = none :=
  ⟨⟨[(⟨"b".toList, "E".toList⟩, ⟨⟨"b".toList, "E".toList⟩, [⟨"a".toList, "F".toList⟩], .enum ["X".toList] []⟩),
      (⟨"a".toList, "F".toList⟩, ⟨⟨"b".toList, "E".toList⟩, [⟨"a".toList, "F".toList⟩], .enum ["X".toList] []⟩),
      (⟨"a".toList, "R".toList⟩, ⟨⟨"a".toList, "R".toList⟩, [], .record [⟨"e".toList, [], .ref ⟨"b".toList, "E".toList⟩, none⟩]⟩)],
      .ref ⟨"a".toList, "R".toList⟩⟩,
    ⟨⟨"b".toList, "E".toList⟩, [⟨"a".toList, "F".toList⟩], .enum ["X".toList] []⟩, rfl, rfl, rfl, rfl, rfl⟩

/-- `"namespace": ""`, which by the Avro specification is the null namespace, is ignored: the
record `I` within the namespace `a` becomes `a.I`. -/
def emptyNamespace : Json := jobj [("fields", .arr [jobj [("name", jstr "e"), ("type",
  jobj [("fields", .arr []), ("name", jstr "I"), ("namespace", jstr ""), ("type", jstr "record")])]]),
  ("name", jstr "a.R"), ("type", jstr "record")]

theorem empty_namespace_ignored : ∃ s d, parseSchema emptyNamespace = .ok s ∧
    s.env.find ⟨"a".toList, "I".toList⟩ = some d ∧ s.env.find ⟨[], "I".toList⟩ = none :=
  ⟨⟨[(⟨"a".toList, "I".toList⟩, ⟨⟨"a".toList, "I".toList⟩, [], .record []⟩),
      (⟨"a".toList, "R".toList⟩, ⟨⟨"a".toList, "R".toList⟩, [], .record [⟨"e".toList, [], .ref ⟨"a".toList, "I".toList⟩, none⟩]⟩)],
      .ref ⟨"a".toList, "R".toList⟩⟩, ⟨⟨"a".toList, "I".toList⟩, [], .record []⟩, rfl, rfl, rfl⟩

/-! ### C65 -/

/-- What the command accepts: the files describe types and definitions, no name stands for two
definitions in all of them, and every name mentioned is defined in one of them. -/
theorem command_accepts (short : Bool) (js : List Json) :
    (∃ n, parseCommand short js = .ok n) ↔
      ∃ ts ds, FilesDescribe short js ts ds ∧ Compatible ds ∧ CompleteAll ts ds := by
  constructor
  · rintro ⟨n, h⟩
    unfold parseCommand at h
    split at h
    · cases h
    rename_i n' h1
    split at h
    · cases h
    rename_i h2
    cases h
    obtain ⟨ts, ds, h3, h4, h5, -⟩ := parseFiles_ok (holds_empty short) (ts0 := []) ⟨fun t => by simp⟩ h1
    simp only [List.nil_append] at h4 h5
    exact ⟨ts, ds, h3, h4.compatible, (resolve_complete h4 h5).1 h2⟩
  · rintro ⟨ts, ds, h1, h2, h3⟩
    obtain ⟨n', h4⟩ := parseFiles_complete (holds_empty short) h1 (by simpa using h2)
    obtain ⟨ts', ds', h5, h6, h7, -⟩ := parseFiles_ok (holds_empty short) (ts0 := []) ⟨fun t => by simp⟩ h4
    have huniq : ∀ {js ts ds ts' ds'}, FilesDescribe short js ts ds → FilesDescribe short js ts' ds' → ts = ts' ∧ ds = ds' := by
      intro js ts ds ts' ds' ha
      induction ha generalizing ts' ds' with
      | nil => intro hb; cases hb; exact ⟨rfl, rfl⟩
      | cons ha1 _ ih =>
        intro hb
        cases hb with
        | cons hb1 hb2 =>
          obtain ⟨rfl, rfl⟩ := describes_unique ha1 hb1
          obtain ⟨rfl, rfl⟩ := ih hb2
          exact ⟨rfl, rfl⟩
    obtain ⟨rfl, rfl⟩ := huniq h1 h5
    simp only [List.nil_append] at h6 h7
    refine ⟨n', ?_⟩
    unfold parseCommand
    rw [h4]
    dsimp only
    rw [(resolve_complete h6 h7).2 h3]

/-- What a name denotes after the command has read its files. -/
theorem command_means (short : Bool) (js : List Json) (n : NS) (h : parseCommand short js = .ok n) :
    ∃ ts ds, FilesDescribe short js ts ds ∧ ∀ q d, n.find q = some d ↔ d ∈ ds ∧ KnownAs d q := by
  unfold parseCommand at h
  split at h
  · cases h
  rename_i n' h1
  split at h
  · cases h
  cases h
  obtain ⟨ts, ds, h3, h4, h5, -⟩ := parseFiles_ok (holds_empty short) (ts0 := []) ⟨fun t => by simp⟩ h1
  exact ⟨ts, ds, h3, by simpa using h4.find⟩

theorem filesDescribe_perm {short : Bool} {js js' : List Json} (hp : js.Perm js') : ∀ {ts ds},
    FilesDescribe short js ts ds → ∃ ts' ds', FilesDescribe short js' ts' ds' ∧ ts.Perm ts' ∧ ds.Perm ds' := by
  induction hp with
  | nil => intro ts ds h; exact ⟨ts, ds, h, .refl _, .refl _⟩
  | cons j _ ih =>
    intro ts ds h
    cases h with
    | cons h1 h2 =>
      obtain ⟨ts', ds', h3, h4, h5⟩ := ih h2
      exact ⟨_, _, .cons h1 h3, .cons _ h4, h5.append_left _⟩
  | swap j j' l =>
    intro ts ds h
    cases h with
    | cons h1 h2 =>
      cases h2 with
      | cons h3 h4 =>
        refine ⟨_, _, .cons h3 (.cons h1 h4), .swap _ _ _, ?_⟩
        rw [← List.append_assoc, ← List.append_assoc]
        exact (List.perm_append_comm).append_right _
  | trans _ _ ih1 ih2 =>
    intro ts ds h
    obtain ⟨ts', ds', h1, h2, h3⟩ := ih1 h
    obtain ⟨ts'', ds'', h4, h5, h6⟩ := ih2 h1
    exact ⟨ts'', ds'', h4, h2.trans h5, h3.trans h6⟩

/-- The order in which the schema files are given does not matter: in every order the files are
accepted or refused alike, and every name denotes the same definition. -/
theorem files_in_any_order (short : Bool) (js js' : List Json) (hp : js.Perm js') (n : NS)
    (h : parseCommand short js = .ok n) :
    ∃ n', parseCommand short js' = .ok n' ∧ ∀ q, n'.find q = n.find q := by
  obtain ⟨ts, ds, h1, h2, h3⟩ := (command_accepts short js).1 ⟨n, h⟩
  obtain ⟨ts', ds', h4, h5, h6⟩ := filesDescribe_perm hp h1
  have hmem : ∀ d, d ∈ ds' ↔ d ∈ ds := fun d => h6.mem_iff.symm
  have hmemt : ∀ t, t ∈ ts' ↔ t ∈ ts := fun d => h5.mem_iff.symm
  have hc : Compatible ds' := ⟨fun d hd => h2.1 d ((hmem d).1 hd),
    fun d hd d' hd' => h2.2 d ((hmem d).1 hd) d' ((hmem d').1 hd')⟩
  have hr : CompleteAll ts' ds' := by
    have hk : ∀ q, (∃ d ∈ ds, KnownAs d q) → ∃ d ∈ ds', KnownAs d q := fun q ⟨d, hd, hk⟩ => ⟨d, (hmem d).2 hd, hk⟩
    exact ⟨fun t ht q hq => hk q (h3.1 t ((hmemt t).1 ht) q hq),
      fun d hd fs doc hkd f hf q hq => hk q (h3.2 d ((hmem d).1 hd) fs doc hkd f hf q hq)⟩
  obtain ⟨n', hn'⟩ := (command_accepts short js').2 ⟨ts', ds', h4, hc, hr⟩
  refine ⟨n', hn', fun q => ?_⟩
  obtain ⟨ts1, ds1, h7, h8⟩ := command_means short js n h
  obtain ⟨ts2, ds2, h9, h10⟩ := command_means short js' n' hn'
  obtain ⟨ts3, ds3, h11, h12, h13⟩ := filesDescribe_perm hp h7
  have huniq : ∀ {js ts ds ts' ds'}, FilesDescribe short js ts ds → FilesDescribe short js ts' ds' → ts = ts' ∧ ds = ds' := by
    intro js ts ds ts' ds' ha
    induction ha generalizing ts' ds' with
    | nil => intro hb; cases hb; exact ⟨rfl, rfl⟩
    | cons ha1 _ ih =>
      intro hb
      cases hb with
      | cons hb1 hb2 =>
        obtain ⟨rfl, rfl⟩ := describes_unique ha1 hb1
        obtain ⟨rfl, rfl⟩ := ih hb2
        exact ⟨rfl, rfl⟩
  obtain ⟨-, rfl⟩ := huniq h9 h11
  apply Option.ext
  intro d
  rw [h10, h8, h13.mem_iff]

/-! ### a document -/

/-- A record in a namespace with a union, an enum, a fixed with an alias, a map and an array, which
mention the record itself and what is defined in it. -/
def sampleDoc : Json := jobj [("doc", jstr "a list"), ("fields", .arr [
    jobj [("default", .null), ("name", jstr "next"), ("type", .arr [jstr "null", jstr "List"])],
    jobj [("name", jstr "color"), ("type", jobj [("default", jstr "R"), ("name", jstr "Color"),
      ("symbols", .arr [jstr "R", jstr "G"]), ("type", jstr "enum")])],
    jobj [("aliases", .arr [jstr "digest"]), ("name", jstr "hash"), ("type", jobj [("aliases", .arr [jstr "Old"]),
      ("name", jstr "x.Hash"), ("size", .num 16), ("type", jstr "fixed")])],
    jobj [("name", jstr "m"), ("type", jobj [("type", jstr "map"), ("values", jstr "Color")])],
    jobj [("name", jstr "l"), ("type", jobj [("items", jstr "x.Old"), ("type", jstr "array")])]]),
  ("name", jstr "a.b.List"), ("type", jstr "record")]

def sampleSchema : Schema :=
  let color : Def := ⟨⟨"a.b".toList, "Color".toList⟩, [], .enum ["R".toList, "G".toList] "R".toList⟩
  let hash : Def := ⟨⟨"x".toList, "Hash".toList⟩, [⟨"x".toList, "Old".toList⟩], .fixed 16⟩
  let list : Def := ⟨⟨"a.b".toList, "List".toList⟩, [], .record [
    ⟨"next".toList, [], .union [.null, .ref ⟨"a.b".toList, "List".toList⟩], some .null⟩,
    ⟨"color".toList, [], .ref color.name, none⟩,
    ⟨"hash".toList, ["digest".toList], .ref hash.name, none⟩,
    ⟨"m".toList, [], .map (.ref color.name), none⟩,
    ⟨"l".toList, [], .array (.ref ⟨"x".toList, "Old".toList⟩), none⟩]⟩
  ⟨[(color.name, color), (hash.name, hash), (⟨"x".toList, "Old".toList⟩, hash), (list.name, list)], .ref list.name⟩

theorem sample_parsed : parseSchema sampleDoc = .ok sampleSchema := rfl

/-- The hypotheses of the theorems of C55 are met: a field type is reached through the table. -/
example : Reachable sampleSchema ⟨"x".toList, "Old".toList⟩ :=
  .field (.root .ref) rfl rfl (f := ⟨"l".toList, [], .array (.ref ⟨"x".toList, "Old".toList⟩), none⟩)
    (by simp [sampleSchema]) (.array .ref)

example : ∃ t ds, Describes false "topLevel".toList [] sampleDoc t ds ∧ Compatible ds ∧ Complete t ds := by
  obtain ⟨t, ds, h1, h2, h3, -⟩ := parse_means _ _ sample_parsed
  exact ⟨t, ds, h1, h2, h3⟩

/-- A name that is nowhere defined. -/
example : parseSchema (.arr [jstr "null", jstr "Nowhere"]) = .error (.unresolved ⟨[], "Nowhere".toList⟩) := rfl

/-- The same definition twice, and two different ones of the same name. -/
def twice (sz : Int) : Json := .arr [
  jobj [("name", jstr "F"), ("size", .num 4), ("type", jstr "fixed")],
  jobj [("name", jstr "F"), ("size", .num sz), ("type", jstr "fixed")]]

example : parseSchema (twice 4) = .ok ⟨[(⟨[], "F".toList⟩, ⟨⟨[], "F".toList⟩, [], .fixed 4⟩)],
    .union [.ref ⟨[], "F".toList⟩, .ref ⟨[], "F".toList⟩]⟩ ∧
    parseSchema (twice 5) = .error (.conflict ⟨[], "F".toList⟩) := ⟨rfl, rfl⟩

/-- Two files that use each other, in either order. -/
example : (∃ n, parseCommand true [jobj [("fields", .arr [jobj [("name", jstr "f"), ("type", jstr "F")]]), ("name", jstr "R"),
      ("type", jstr "record")], jobj [("name", jstr "F"), ("size", .num 4), ("type", jstr "fixed")]] = .ok n) := by
  refine ⟨_, rfl⟩

end Verif.Props
