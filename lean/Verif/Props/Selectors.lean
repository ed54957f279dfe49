import Verif.Gen.SelectorsProof
import Verif.Props.Imports
import Verif.Props.Names
/-
C106: the members and the methods of generated structs.
-/
set_option autoImplicit false
namespace Verif.Props
open Verif Spec Spec.Go
set_option linter.unusedSimpArgs false

/-! ### Unions -/

/-- The methods of a union, in the order of v10/generator/flat/templates/union.go:63-187. -/
def unionMethodNames : List Str :=
  ["Serialize".toList, "Schema".toList, "SetBoolean".toList, "SetInt".toList, "SetFloat".toList, "SetDouble".toList, "SetBytes".toList, "SetString".toList, "SetLong".toList,
    "Get".toList, "NullField".toList, "HintSize".toList, "SetDefault".toList, "AppendMap".toList, "AppendArray".toList, "Finalize".toList, "MarshalJSON".toList, "UnmarshalJSON".toList]

theorem receives_union (nm : Namer) (n : NS) (name : Str) (ts : List PTy) (d : List Json) :
    Receives ((PTy.union name ts d).goName nm n) (goTypeOf nm n (.union name ts d)) := by
  rw [goTypeOf]
  split
  · exact .inr rfl
  · exact .inl rfl

theorem adds_enum (x : Str) {s name base : Str} {cs : List (Str × Nat)} (hb : base ≠ "struct".toList) (h : tokens s = some (enumToks name base cs)) (hl : Line s) : Adds x s [] := by
  have e : enumToks name base cs = ([w "type", .word name, .word base] ++ [.sign ';']) ++ ((w "const" :: .sign '(' ::
    (cs.flatMap (fun c => [Tok.word c.1, .word name, .sign '=', number c.2, .sign ';']) ++ [.sign ')'])) ++ [.sign ';']) := by simp [enumToks]
  have hw : ∀ d, walk (d + 1) (cs.flatMap (fun c => [Tok.word c.1, .word name, .sign '=', number c.2, .sign ';'])) = some (d + 1) := fun d =>
    within_flatMap (fun c _ d => by brackets []) d
  have h1 : One ([w "type", .word name, .word base] ++ [.sign ';']) := one_of (by brackets [])
  have h2 : One ((w "const" :: .sign '(' :: (cs.flatMap (fun c => [Tok.word c.1, .word name, .sign '=', number c.2, .sign ';']) ++ [.sign ')'])) ++ [.sign ';']) :=
    one_of (by brackets [hw])
  rw [e] at h
  refine ⟨_, fun _ _ hr => tokens_cat h hl hr, fun rest => ?_⟩
  rw [selectorNames, List.append_assoc, one_cut h1, one_cut h2, List.flatMap_cons, List.flatMap_cons]
  have e1 : selectors x ([w "type", .word name, .word base] ++ [.sign ';']) = [] := by
    simp [selectors, w, hb]
  have e2 : selectors x ((w "const" :: .sign '(' :: (cs.flatMap (fun c => [Tok.word c.1, .word name, .sign '=', number c.2, .sign ';']) ++ [.sign ')'])) ++ [.sign ';']) = [] := by
    cases cs <;> simp [selectors, w, number]
  rw [e1, e2]
  rfl

theorem adds_unionNew (x : Str) (nm : Namer) (n : NS) {name : Str} {ts : List PTy} {d : List Json} (h : NamedTy n (.union name ts d)) :
    Adds x (unionNewText ((PTy.union name ts d).goName nm n) ((PTy.union name ts d).goType nm n) ts) [] := by
  refine adds_one (union_constructor_text nm n h) (by unfold unionNewText; ends) ?_ ?_
  · have e : ∀ c : Bool, One ([w "func", .word ("New".toList ++ (PTy.union name ts d).goName nm n), .sign '(', .sign ')'] ++ (goTypeOf nm n (.union name ts d)).toks ++
        [.sign '{', w "return"] ++ (if c then [.sign '&'] else []) ++ [.word ((PTy.union name ts d).goName nm n), .sign '{', .sign '}', .sign ';', .sign '}', .sign ';']) := by
      intro c
      refine ⟨[w "func", .word ("New".toList ++ (PTy.union name ts d).goName nm n), .sign '(', .sign ')'] ++ (goTypeOf nm n (.union name ts d)).toks ++
        [.sign '{', w "return"] ++ (if c then [.sign '&'] else []) ++ [.word ((PTy.union name ts d).goName nm n), .sign '{', .sign '}', .sign ';', .sign '}'], by simp, ?_⟩
      cases c <;> brackets [ty_walk, if_true, if_false, Bool.false_eq_true]
    exact e _
  · simp only [List.append_assoc, List.cons_append, List.nil_append]
    exact selectors_function _ _ _

/-- C106: the members and methods of a union's type, in the text of its file: a member per type of the union, `UnionType`, and the methods. -/
theorem union_selectors (nm : Namer) (n : NS) (print : Char → Bool) (hp : Printing print) (schema : List Byte) (name : Str) (ts : List PTy) (d : List Json)
    (h : NamedTy n (.union name ts d)) :
    ∃ us, tokens (cat (unionFile nm n print schema ((PTy.union name ts d).goName nm n) ((PTy.union name ts d).goType nm n) ts)) = some us ∧
      selectorNames ((PTy.union name ts d).goName nm n) us = ts.map (·.goName nm n) ++ "UnionType".toList :: unionMethodNames := by
  have hx := goName_exported nm n _ h
  have ht := phrase_type nm n h
  have hr := receives_union nm n name ts d
  have hp' : Receives ((PTy.union name ts d).goName nm n) (.pointer (.named ((PTy.union name ts d).goName nm n))) := .inr rfl
  have hreader : ∀ p ∈ [("r".toList, readerToks)], Level p.2 := by intro p hp; rw [List.mem_singleton.1 hp]; exact fun d => by brackets [readerToks]
  refine (adds_file (adds_append (adds_append (.cons (adds_imports _ (by decide +kernel)) (.cons (adds_enum _ (by decide +kernel) (union_constants nm n name ts d h) (by unfold unionConstText; ends))
    (.cons (adds_one (union_declaration nm n name ts d h) (by unfold unionStructText; ends) (struct_one _ _) (selectors_struct _ _))
    (.cons (adds_func (writer_text nm n h (by simp) rfl rfl) (by unfold unionCode; ends) rfl) (.cons (adds_unionNew _ nm n h)
    (.cons (adds_serialize (serialize_text nm n _ h) (by unfold serializeText; ends) hr)
    (.cons (adds_fn (writes_unionDecode hx ht ts) (by unfold unionDecodeText unionEvalText; ends)
      (fn_one (unionDecode false _ _ _) hreader (level_ty _)) rfl)
    (.cons (adds_fn (writes_unionDecodeFrom hx ht ts) (by unfold unionDecodeFromText unionEvalText; ends)
      (fn_one (unionDecode true _ _ _) (by
        intro p hp
        rcases List.mem_cons.1 hp with rfl | hp
        · exact fun d => by brackets [readerToks]
        · rw [List.mem_singleton.1 hp]; exact fun d => rfl) (level_ty _)) rfl)
    (.cons (adds_constMethod (union_schema_constant nm n print hp name ts d h schema) (by unfold schemaText; ends) hr) .nil)))))))))
    (adds_methods (texts_union nm n h) (union_lines _ _ _ _ _) ?_))
    (.cons (adds_marshal (unionMarshal_tokens nm n h) (by unfold unionMarshalText; ends) hr)
    (.cons (adds_unmarshal (unionUnmarshal_tokens nm n h) (by unfold unionUnmarshalText; ends) (unmarshal_plain nm n _ ts) hp') .nil)))).imp fun us hu => ⟨hu.1, hu.2.trans ?_⟩
  · intro m hm
    simp only [unionMethodsOf, List.mem_cons, List.not_mem_nil, or_false] at hm
    rcases hm with rfl | rfl | rfl | rfl | rfl | rfl | rfl | rfl | rfl | rfl | rfl | rfl | rfl | rfl
    all_goals first | exact hp' | exact hr
  · have e : (unionMethodsOf nm n ((PTy.union name ts d).goName nm n) (goTypeOf nm n (.union name ts d)) ts).map (·.name) =
        ["SetBoolean".toList, "SetInt".toList, "SetFloat".toList, "SetDouble".toList, "SetBytes".toList, "SetString".toList, "SetLong".toList,
        "Get".toList, "NullField".toList, "HintSize".toList, "SetDefault".toList, "AppendMap".toList, "AppendArray".toList, "Finalize".toList] := rfl
    rw [e]
    simp only [List.map_append, List.map_map, List.map_cons, List.map_nil, List.append_assoc, List.nil_append, List.cons_append, List.append_nil, unionMethodNames, Function.comp_def]

/-! ### Records -/

section
variable {nm : Namer} {n : NS} {print : Char → Bool} {k : Nat} {fs : List PField} {name s : Str}

theorem adds_constructor (hp : Printing print) (hn : LegalFields n) (hname : Exported name) (hf : ∀ f ∈ fs, LegalName f.name ∧ LetterFirst f.name ∧ NamedTy n f.ty)
    (hd : ReadableDefaults nm n k fs) (h : constructorText nm n print k name fs = .ok s) (x : Str) : Adds x s [] := by
  have ht := constructor_tokens nm hp hn k hname hf
  rw [h] at ht
  cases hL : newSts nm n k fs with
  | error e => rw [hL] at ht; exact ht.elim
  | ok L =>
    rw [hL] at ht
    refine adds_one (ht (all_new local_readable hd hL)) ?_ (constructor_one name (all_new local_number (fun f _ L hL => dflt_numbers hL) hL)) (selectors_function _ _ _)
    unfold constructorText at h
    cases hl : freshTexts nm n print k fs with
    | error e => rw [hl] at h; cases h
    | ok l => rw [hl] at h; cases h; ends

theorem adds_setDefault (hp : Printing print) (hn : LegalFields n) (hname : Exported name) (hf : ∀ f ∈ fs, LegalName f.name ∧ LetterFirst f.name ∧ NamedTy n f.ty)
    (hd : ReadableDefaults nm n k fs) (h : setDefaultText nm n print k name fs = .ok s) : Adds name s ["SetDefault".toList] := by
  have ht := setDefault_tokens nm hp hn k hname hf
  rw [h] at ht
  cases hL : setCases nm n k 0 fs with
  | error e => rw [hL] at ht; exact ht.elim
  | ok L =>
    rw [hL] at ht
    refine adds_one (ht (all_cases local_readable hd hL)) ?_ (setDefault_one name (all_cases local_number (fun f _ L hL => dflt_numbers hL) hL))
      (selectors_method (t := .pointer (.named name)) (.inr rfl) _ _)
    unfold setDefaultText at h
    cases hl : setDefaultTexts nm n print k 0 fs with
    | error e => rw [hl] at h; cases h
    | ok l => rw [hl] at h; cases h; ends

theorem adds_recordUnmarshal (hp : Printing print) (hn : LegalFields n) (hname : Exported name) (hf : ∀ f ∈ fs, LegalName f.name ∧ LetterFirst f.name ∧ NamedTy n f.ty)
    (hd : ReadableDefaults nm n k fs) (h : recordUnmarshalText nm n print k name fs = .ok s) : Adds name s ["UnmarshalJSON".toList] := by
  have ht := recordUnmarshal_tokens nm hp hn k hname hf
  rw [h] at ht
  cases hL : recordUnmarshal nm n k fs with
  | error e => rw [hL] at ht; exact ht.elim
  | ok L =>
    rw [hL] at ht
    refine adds_unmarshal (ht (readable_reads (all_unmarshal local_readable hd hL))) ?_
      (plain_reads (all_unmarshal local_number (fun f _ L hL => dflt_numbers hL) hL)) (.inr rfl)
    unfold recordUnmarshalText at h
    cases hl : fieldReadTexts nm n print k fs with
    | error e => rw [hl] at h; cases h
    | ok l => rw [hl] at h; cases h; ends
end

/-- C106: the members and methods of a record's type, in the text of its file: a member per field, and the methods of `recordMethods` (Gen/Names, for C58). -/
theorem record_selectors (nm : Namer) (n : NS) (print : Char → Bool) (hp : Printing print) (hn : LegalFields n) (k : Nat) (schema fp : List Byte) (d : PDef) (hdot : Dotted d.name.str)
    (fs : List PField) (doc : Str) (hk : d.kind = .record fs doc) (hdoc : ∀ c ∈ doc, forbidden c = false) (hf : ∀ f ∈ fs, Plainly n f)
    (hd : ReadableDefaults nm n k fs) (l : List Str) (hl : recordFile nm n print k schema fp d fs doc = .ok l) :
    ∃ us, tokens (cat l) = some us ∧ selectorNames (d.goName nm) us = fs.map (fun f => fieldGoName nm f.name) ++ recordMethods := by
  have hx : Exported (d.goName nm) := publicName_exported nm hdot
  have hf' : ∀ f ∈ fs, LegalName f.name ∧ LetterFirst f.name ∧ NamedTy n f.ty := fun f h => ⟨(hf f h).name, (hf f h).letter, (hf f h).ty⟩
  have hw := definition_text nm n d hdot (by intro fs' doc' e; rw [hk] at e; cases e; exact hf')
  rw [PDef.writerText, PDef.writer, hk] at hw
  have hT : Phrase (d.goName nm) (GoTy.named (d.goName nm)).toks := phrase_exported hx
  have hr : Receives (d.goName nm) (.named (d.goName nm)) := .inl rfl
  have hr' : Receives (d.goName nm) (.pointer (.named (d.goName nm))) := .inr rfl
  have hreader : ∀ p ∈ [("r".toList, readerToks)], Level p.2 := by intro p hp; rw [List.mem_singleton.1 hp]; exact fun d => by brackets [readerToks]
  have key : ∀ {s : Str} {m : Spec.GoT.Method}, Writes false s m.toks false → Line s → Receives (d.goName nm) m.recv.2 → Adds (d.goName nm) s [m.name] :=
    fun h hl hr => adds_method (writes_tokens h) hl hr
  simp only [recordFile] at hl
  cases h1 : constructorText nm n print k (d.goName nm) fs with
  | error e => rw [h1] at hl; cases hl
  | ok new =>
    cases h2 : setDefaultText nm n print k (d.goName nm) fs with
    | error e => rw [h1, h2] at hl; cases hl
    | ok dflt =>
      cases h3 : recordUnmarshalText nm n print k (d.goName nm) fs with
      | error e => rw [h1, h2, h3] at hl; cases hl
      | ok um =>
        rw [h1, h2, h3] at hl
        cases hl
        refine (adds_file (.cons (adds_imports _ (by decide +kernel))
          (.cons (adds_one (us := [w "var", w "_", .sign '=', w "fmt", .sign '.', w "Printf"] ++ [.sign ';']) (by decide +kernel) (by unfold usedText; ends) (one_of (by brackets [])) rfl)
          (.cons (adds_one (struct_declaration_partial nm n print hp d fs doc hk hdot hdoc hf) (by unfold structText; ends) (struct_one _ _) (selectors_struct _ _))
          (.cons (adds_one (fingerprint_constant nm print hp d hdot fp) (by unfold fingerprintText; ends) (const_one _ _) rfl)
          (.cons (adds_constructor hp hn hx hf' hd h1 _)
          (.cons (adds_fn (writes_recordDecode hx) (by unfold recordDecodeText evalText; ends) (fn_one (recordDecode false _) hreader (fun d => rfl)) rfl)
          (.cons (adds_fn (writes_recordDecodeFrom hx) (by unfold recordDecodeFromText evalText; ends) (fn_one (recordDecode true _) (by
            intro p hp
            rcases List.mem_cons.1 hp with rfl | hp
            · exact fun d => by brackets [readerToks]
            · rw [List.mem_singleton.1 hp]; exact fun d => rfl) (fun d => rfl)) rfl)
          (.cons (adds_func hw (by unfold recordCode; ends) rfl)
          (.cons (adds_serialize (tokens_of (clean_serialize hx (clean_exported hx)) (toks_serialize hx (types_named hx))) (by unfold serializeText; ends) hr)
          (.cons (adds_constMethod (t := .named (d.goName nm)) (schema_constant nm print hp d hdot schema) (by unfold schemaText; ends) hr)
          (.cons (adds_constMethod (t := .named (d.goName nm)) (schemaName_constant nm print hp d hdot) (by unfold schemaNameText; ends) hr)
          (.cons (key (writes_boolean hT) (line_stub _ _) hr) (.cons (key (writes_int hT) (line_stub _ _) hr) (.cons (key (writes_long hT) (line_stub _ _) hr)
          (.cons (key (writes_float hT) (line_stub _ _) hr) (.cons (key (writes_double hT) (line_stub _ _) hr) (.cons (key (writes_bytes hT) (line_stub _ _) hr)
          (.cons (key (writes_string hT) (line_stub _ _) hr) (.cons (key (writes_unionElem hT) (line_stub _ _) hr)
          (.cons (key (writes_recordGet nm n hx fs hf') (line_recordGet _ _ _ _) hr') (.cons (adds_setDefault hp hn hx hf' hd h2)
          (.cons (key (writes_recordNull nm n hx fs hf') (line_recordNull _ _ _) hr') (.cons (key (writes_line (writes_appendMap hT)) (line_append (line_stub _ _)) hr)
          (.cons (key (writes_appendArray hT) (line_stub _ _) hr) (.cons (key (writes_hint hT) (line_stub _ _) hr) (.cons (key (writes_finalize hT) (line_finalize _) hr)
          (.cons (adds_one (ns := ["AvroCRC64Fingerprint".toList]) (fingerprint_method_text hx) (by unfold fingerprintMethodText; ends)
            ⟨[w "func", .sign '(', w "_", .word (d.goName nm), .sign ')', w "AvroCRC64Fingerprint", .sign '(', .sign ')', .sign '[', .sign ']', w "byte", .sign '{',
              w "return", .sign '[', .sign ']', w "byte", .sign '(', .word (d.goName nm ++ "AvroCRC64Fingerprint".toList), .sign ')', .sign ';', .sign '}'], rfl, by brackets []⟩
            (selectors_method (t := .named (d.goName nm)) hr _ _))
          (.cons (adds_marshal (recordMarshal_tokens nm hp hx fun f h => ⟨(hf f h).name, (hf f h).letter⟩) (by unfold recordMarshalText; ends) hr)
          (.cons (adds_recordUnmarshal hp hn hx hf' hd h3) .nil)))))))))))))))))))))))))))))).imp fun us hu => ⟨hu.1, hu.2.trans ?_⟩
        have e : (fs.map (memberOf nm n)).map (·.name) = fs.map (fun f => fieldGoName nm f.name) := by simp [memberOf, Function.comp_def]
        rw [e]
        rfl

/-! ### No name twice -/

/-- C106: no two members or methods of a record have the same name, if the Go names of its fields are distinct and no field is named for the two methods that the generator
forgets (`method_field`). -/
theorem record_selectors_distinct_partial (nm : Namer) (n : NS) (print : Char → Bool) (hp : Printing print) (hn : LegalFields n) (k : Nat) (schema fp : List Byte) (d : PDef)
    (hdot : Dotted d.name.str) (fs : List PField) (doc : Str) (hk : d.kind = .record fs doc) (hdoc : ∀ c ∈ doc, forbidden c = false) (hf : ∀ f ∈ fs, Plainly n f)
    (hd : ReadableDefaults nm n k fs) (l : List Str) (hl : recordFile nm n print k schema fp d fs doc = .ok l)
    (hdist : (fs.map fun f => fieldGoName nm f.name).Nodup)
    (hm : ∀ f ∈ fs, fieldGoName nm f.name ≠ "HintSize".toList ∧ fieldGoName nm f.name ≠ "SetUnionElem".toList) :
    ∃ us, tokens (cat l) = some us ∧ (selectorNames (d.goName nm) us).Nodup := by
  obtain ⟨us, h1, h2⟩ := record_selectors nm n print hp hn k schema fp d hdot fs doc hk hdoc hf hd l hl
  refine ⟨us, h1, ?_⟩
  rw [h2, List.nodup_append]
  refine ⟨hdist, by decide +kernel, ?_⟩
  intro a ha b hb e
  obtain ⟨f, hff, rfl⟩ := List.mem_map.1 ha
  rcases (field_name_exported_partial nm f.name (hf f hff).name (hf f hff).letter).2 b hb e with r | r
  · exact (hm f hff).1 (e.trans r)
  · exact (hm f hff).2 (e.trans r)

/-- The Go name of a member that is no definition and no union is no method of a union, and is not `UnionType`. -/
theorem plain_member (nm : Namer) (n : NS) (t : PTy) (hr : ∀ q, t ≠ .ref q) (hu : ∀ s ts d, t ≠ .union s ts d) : t.goName nm n ∉ "UnionType".toList :: unionMethodNames := by
  have key : ∀ (p r : Str), (("UnionType".toList :: unionMethodNames).all fun m => !p.isPrefixOf m) = true → p ++ r ∉ "UnionType".toList :: unionMethodNames := by
    intro p r h hm
    have := List.all_eq_true.1 h _ hm
    rw [List.isPrefixOf_iff_prefix.2 (List.prefix_append p r)] at this
    cases this
  cases t with
  | prim p j => cases p <;> rw [PTy.goName] <;> decide +kernel
  | array t j => rw [PTy.goName]; exact key _ _ (by decide +kernel)
  | map t j => rw [PTy.goName]; exact key _ _ (by decide +kernel)
  | union s ts d => exact absurd rfl (hu s ts d)
  | ref q => exact absurd rfl (hr q)

/-- C106: no two members or methods of a union have the same name, if the Go names of its types are distinct, none of them is a union (which Avro does not allow), and the definitions among them have not
the Go names of methods, or `UnionType`. -/
theorem union_selectors_distinct_partial (nm : Namer) (n : NS) (print : Char → Bool) (hp : Printing print) (schema : List Byte) (name : Str) (ts : List PTy) (d : List Json)
    (h : NamedTy n (.union name ts d)) (hdist : (ts.map (·.goName nm n)).Nodup) (hu : ∀ t ∈ ts, ∀ s ts d, t ≠ .union s ts d)
    (hm : ∀ q, PTy.ref q ∈ ts → (PTy.ref q).goName nm n ∉ "UnionType".toList :: unionMethodNames) :
    ∃ us, tokens (cat (unionFile nm n print schema ((PTy.union name ts d).goName nm n) ((PTy.union name ts d).goType nm n) ts)) = some us ∧
      (selectorNames ((PTy.union name ts d).goName nm n) us).Nodup := by
  obtain ⟨us, h1, h2⟩ := union_selectors nm n print hp schema name ts d h
  refine ⟨us, h1, ?_⟩
  rw [h2, List.nodup_append]
  refine ⟨hdist, by decide +kernel, ?_⟩
  intro a ha b hb e
  obtain ⟨t, ht, rfl⟩ := List.mem_map.1 ha
  subst e
  by_cases hr : ∃ q, t = .ref q
  · obtain ⟨q, rfl⟩ := hr
    exact hm q ht hb
  · exact plain_member nm n t (fun q e => hr ⟨q, e⟩) (hu t ht) hb

/-! ### Where they clash -/

/-- The command accepts the file, and one of the files that it writes has two members or methods `m` of the type `x`. -/
def SelectedTwice (j : Json) (x m : String) : Prop :=
  ∃ n, parseCommand false [j] = .ok n ∧ ∃ f ∈ generate .simple false n, ∃ k schema text us, templateText .simple n asciiPrint k schema f.2 = some text ∧ tokens text = some us ∧
    1 < (selectorNames x.toList us).count m.toList

theorem selected_of {j : Json} {x m : String}
    (h : After false [j] (fun n => (generate .simple false n).any fun f => match (templateText .simple n asciiPrint 4 (fun _ => []) f.2).bind tokens with
      | some us => decide (1 < (selectorNames x.toList us).count m.toList)
      | none => false) = true) : SelectedTwice j x m := by
  obtain ⟨n, h1, h2⟩ := after_iff h
  obtain ⟨f, hf, h3⟩ := List.any_eq_true.1 h2
  cases ht : templateText .simple n asciiPrint 4 (fun _ => []) f.2 with
  | none => rw [ht] at h3; cases h3
  | some text =>
    cases hu : tokens text with
    | none => rw [ht, Option.bind_some, hu] at h3; cases h3
    | some us =>
      rw [ht, Option.bind_some, hu] at h3
      exact ⟨n, h1, f, hf, 4, _, text, us, ht, hu, of_decide_eq_true h3⟩

/-- C106 fails for a union with a record named `UnionType`: the struct has two members of this name. -/
theorem union_member_clash :
    SelectedTwice (jrecord "Order" "a" (.arr [jstr "null", jrecord "UnionType" "b" (jstr "int")])) "UnionNullUnionType" "UnionType" := selected_of (by decide +kernel)

/-- C106 fails for a union with a record named as a method: `Serialize`. -/
theorem union_method_clash :
    SelectedTwice (jrecord "Order" "a" (.arr [jstr "null", jrecord "Serialize" "b" (jstr "int")])) "UnionNullSerialize" "Serialize" := selected_of (by decide +kernel)

/-- C106 fails for a union of a primitive type and a record of its Go name: `string` and a record `String`, `boolean` and `Bool`. -/
theorem union_primitive_clash :
    SelectedTwice (jrecord "Order" "a" (.arr [jstr "string", jrecord "String" "b" (jstr "int")])) "UnionStringString" "String" ∧
    SelectedTwice (jrecord "Order" "a" (.arr [jstr "boolean", jrecord "Bool" "b" (jstr "int")])) "UnionBoolBool" "Bool" :=
  ⟨selected_of (by decide +kernel), selected_of (by decide +kernel)⟩

/-- C106 fails for a record with fields `id` and `Id`. -/
theorem record_field_clash : SelectedTwice (jobj [("fields", .arr [jobj [("name", jstr "id"), ("type", jstr "int")], jobj [("name", jstr "Id"), ("type", jstr "int")]]),
    ("name", jstr "Order"), ("type", jstr "record")]) "Order" "Id" := selected_of (by decide +kernel)

/-- C106 fails for a record with a field `hintSize` (see `method_field`). -/
theorem record_method_clash : SelectedTwice (jrecord "Order" "hintSize" (jstr "int")) "Order" "HintSize" := selected_of (by decide +kernel)

/-! ### The conditions can be met -/

example : ∃ us, tokens (cat (unionFile .simple shop asciiPrint [] "UnionNullString".toList "*UnionNullString".toList
    [.prim .null (.str "null".toList), .prim .string (.str "string".toList)])) = some us ∧ (selectorNames "UnionNullString".toList us).Nodup := by
  have e : (PTy.union [] [.prim .null (.str "null".toList), .prim .string (.str "string".toList)] []).goName .simple shop = "UnionNullString".toList := by decide +kernel
  have e' : (PTy.union [] [.prim .null (.str "null".toList), .prim .string (.str "string".toList)] []).goType .simple shop = "*UnionNullString".toList := by decide +kernel
  have := union_selectors_distinct_partial .simple shop asciiPrint asciiPrint_printing [] [] [.prim .null (.str "null".toList), .prim .string (.str "string".toList)] []
    (by simp only [NamedTy, NamedTys, true_or, and_self]) (by decide +kernel) (by intro t ht s ts d e; subst e; simp at ht) (by intro q hq; simp at hq)
  rwa [e, e'] at this

example : ∃ fs doc l us, sampleDef.kind = .record fs doc ∧ recordFile .simple shop asciiPrint 4 [] [] sampleDef fs doc = .ok l ∧ tokens (cat l) = some us ∧
    (selectorNames (sampleDef.goName .simple) us).Nodup := by
  obtain ⟨f, hf, e⟩ : ∃ f ∈ generate .simple true shop, f.2 = .defn sampleDef := List.mem_map.1 (by rw [shop_files]; simp)
  have hb := shop_legible 4 f hf
  rw [e] at hb
  cases hk : sampleDef.kind with
  | record fs doc =>
    simp only [Legible, hk] at hb
    obtain ⟨h1, h2, h3, h4⟩ := hb
    cases hl : recordFile .simple shop asciiPrint 4 [] [] sampleDef fs doc with
    | error e =>
      have : (match sampleDef.kind with
        | .record fs doc => (match recordFile .simple shop asciiPrint 4 [] [] sampleDef fs doc with
          | .ok _ => true
          | _ => false)
        | _ => false) = true := by decide +kernel
      simp only [hk, hl] at this
      cases this
    | ok l =>
      obtain ⟨us, h5, h6⟩ := record_selectors_distinct_partial .simple shop asciiPrint asciiPrint_printing shop_fields 4 [] [] sampleDef h1 fs doc hk h2 h3 h4 l hl
        (by cases hk; decide +kernel) (by cases hk; decide +kernel)
      exact ⟨fs, doc, l, us, rfl, hl, h5, h6⟩
  | enum syms doc dv => cases hk
  | fixed size => cases hk

end Verif.Props
