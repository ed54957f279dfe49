import Verif.Gen.TextDecl
/-
C90: documentation and tags of a schema stay comments and tags: the declarations that are generated are those
of the fields, whatever the documentation says.
C91: the constants in generated code have the values they were made for.
`print` is the set of characters that `strconv.IsPrint` holds for.
-/
namespace Verif.Props
open Verif Spec Spec.Go

/-- The struct tag of a field: what the schema asks for, then the Avro name for encoding/json. -/
def tagOf (f : PField) : Str := (if f.tags = [] then [] else f.tags ++ [' ']) ++ ("json:".toList ++ '"' :: (f.name ++ ['"']))

/-- The member of the struct that stands for a field. -/
def memberOf (nm : Namer) (n : NS) (f : PField) : Member := ⟨fieldGoName nm f.name, goTypeOf nm n f.ty, some (bytesOf (tagOf f))⟩

/-- What is asked of a field: names that Avro allows, documentation without NUL and byte order mark, and tags
that can stand in a Go struct (no backquote, no carriage return). -/
structure Plainly (n : NS) (f : PField) : Prop where
  name : LegalName f.name
  letter : LetterFirst f.name
  ty : NamedTy n f.ty
  doc : ∀ c ∈ f.doc, forbidden c = false
  tags : ∀ c ∈ f.tags, c ≠ '`' ∧ c ≠ '\r' ∧ forbidden c = false

theorem struct_clean (nm : Namer) (n : NS) {print : Char → Bool} (hp : Printing print) {name doc : Str} {fs : List PField}
    (hname : Exported name) (hdoc : ∀ c ∈ doc, forbidden c = false) (hf : ∀ f ∈ fs, Plainly n f) :
    Clean (structText nm n print name doc fs) := by
  unfold structText
  refine clean_append (clean_docLine hdoc) (clean_append (clean_const (by decide +kernel)) (clean_append (clean_exported hname)
    (clean_append (clean_const (by decide +kernel)) (clean_append (clean_flatMap fun f h => ?_) (clean_const (by decide +kernel))))))
  have := hf f h
  exact clean_field nm n hp this.name this.letter this.ty this.doc this.tags

/-- C90: the text that is generated for a record is the declaration of a struct with one member for each field,
in order, with the field's Go name, the Go type of its schema type and its tag. Documentation, of any length and
with any line breaks, adds nothing. Partial: names and tags are not checked by the program, so this does not hold
of every schema it accepts. -/
theorem struct_declaration_partial (nm : Namer) (n : NS) (print : Char → Bool) (hp : Printing print) (d : PDef) (fs : List PField) (doc : Str)
    (hk : d.kind = .record fs doc) (hname : Dotted d.name.str) (hdoc : ∀ c ∈ doc, forbidden c = false) (hf : ∀ f ∈ fs, Plainly n f) :
    tokens (structText nm n print (d.goName nm) doc fs) = some (structToks (d.goName nm) (fs.map (memberOf nm n))) := by
  have hx : Exported (d.goName nm) := publicName_exported nm hname
  refine tokens_of (struct_clean nm n hp hx hdoc hf) ?_
  have h1 := toks_fields nm n hp toks_end fs (fun f h => ⟨(hf f h).name, (hf f h).letter, (hf f h).ty, (hf f h).tags⟩)
  have e : (fs.map fun f => Member.mk (fieldGoName nm f.name) (goTypeOf nm n f.ty) (some (bytesOf (f.tagText print)))) = fs.map (memberOf nm n) := by
    refine List.map_congr_left fun f h => ?_
    rw [tagText_plain hp (hf f h).name]; rfl
  rw [e] at h1
  exact toks_struct doc hx h1

/-- C90: changing the documentation of a record or of its fields changes nothing but comments. -/
theorem documentation_ignored_partial (nm : Namer) (n : NS) (print : Char → Bool) (hp : Printing print) (d : PDef) (fs : List PField)
    (doc doc' : Str) (docs : PField → Str) (hk : d.kind = .record fs doc) (hname : Dotted d.name.str)
    (hdoc : ∀ c ∈ doc, forbidden c = false) (hdoc' : ∀ c ∈ doc', forbidden c = false) (hf : ∀ f ∈ fs, Plainly n f)
    (hdocs : ∀ f ∈ fs, ∀ c ∈ docs f, forbidden c = false) :
    tokens (structText nm n print (d.goName nm) doc' (fs.map fun f => { f with doc := docs f })) =
      tokens (structText nm n print (d.goName nm) doc fs) := by
  rw [struct_declaration_partial nm n print hp d fs doc hk hname hdoc hf]
  have := struct_declaration_partial nm n print hp { d with kind := .record (fs.map fun f => { f with doc := docs f }) doc' } _ doc' rfl hname hdoc'
    (by
      intro f h
      obtain ⟨g, hg, rfl⟩ := List.mem_map.1 h
      exact ⟨(hf g hg).name, (hf g hg).letter, (hf g hg).ty, hdocs g hg, (hf g hg).tags⟩)
  refine Eq.trans this ?_
  rw [List.map_map]; rfl

/-- C90, unions: the generated struct has one member for each member of the union, and `UnionType`. -/
theorem union_declaration (nm : Namer) (n : NS) (name : Str) (ts : List PTy) (d : List Json) (h : NamedTy n (.union name ts d)) :
    tokens (unionStructText nm n ((PTy.union name ts d).goName nm n) ts) = some (structToks ((PTy.union name ts d).goName nm n)
      ((ts.map fun t => Member.mk (t.goName nm n) (goTypeOf nm n t) none) ++
        [⟨"UnionType".toList, .named ((PTy.union name ts d).goName nm n ++ "TypeEnum".toList), none⟩])) := by
  have hx := goName_exported nm n _ h
  have hn : ∀ t ∈ ts, NamedTy n t := by
    simp only [NamedTy] at h
    exact namedTys_mem h.2
  refine tokens_of ?_ (toks_unionStruct nm n hx ts hn)
  unfold unionStructText unionEnumType
  refine clean_append (clean_const (by decide +kernel)) (clean_append (clean_exported hx) (clean_append (clean_const (by decide +kernel))
    (clean_append (clean_flatMap fun t ht => ?_) (clean_append (clean_const (by decide +kernel))
    (clean_append (clean_append (clean_exported hx) (clean_const (by decide +kernel))) (clean_const (by decide +kernel)))))))
  exact clean_append (clean_exported (goName_exported nm n t (hn t ht))) (clean_append (clean_const (by decide +kernel))
    (clean_append (clean_goType nm n t (hn t ht)) (clean_const (by decide +kernel))))

theorem constNames_spec (nm : Namer) (n : NS) (type : Str) : ∀ (ts : List PTy) (i : Nat), memberConsts type i (constNames nm n ts) =
    ((ts.map fun t => type ++ t.goName nm n).zipIdx i).filter fun c => decide (some c.2 ≠ (ts.findIdx? nullTy).map (· + i))
  | [], i => rfl
  | t :: ts, i => by
    by_cases ht : nullTy t = true
    · have e : constNames nm n (t :: ts) = none :: ts.map fun t => some (t.goName nm n) := by
        cases t with
        | prim p d => cases p <;> first | rfl | cases ht
        | array => cases ht
        | map => cases ht
        | union => cases ht
        | ref => cases ht
      rw [e, memberConsts, memberConsts_names, List.findIdx?_cons, if_pos ht, List.map_cons, List.zipIdx_cons, List.filter_cons_of_neg (by simp)]
      symm
      rw [List.filter_eq_self]
      intro x hx
      have := List.le_snd_of_mem_zipIdx hx
      simp only [Option.map_some, ne_eq, Option.some.injEq, decide_eq_true_eq]
      omega
    · have e : constNames nm n (t :: ts) = some (t.goName nm n) :: constNames nm n ts := by
        cases t with
        | prim p d => cases p <;> first | rfl | exact absurd rfl ht
        | array => rfl
        | map => rfl
        | union => rfl
        | ref => rfl
      rw [e, memberConsts, constNames_spec nm n type ts, List.findIdx?_cons, if_neg ht, List.map_cons, List.zipIdx_cons]
      have e2 : ((ts.findIdx? nullTy).map (· + 1)).map (· + i) = (ts.findIdx? nullTy).map (· + (i + 1)) := by
        cases ts.findIdx? nullTy with
        | none => rfl
        | some k => simp only [Option.map_some]; congr 1; omega
      rw [e2, List.filter_cons_of_pos]
      cases ts.findIdx? nullTy with
      | none => simp
      | some k => simp only [Option.map_some, ne_eq, Option.some.injEq, decide_eq_true_eq]; omega

/-- C91, unions: the constants of the members are their positions in the union. The first null has none. -/
theorem union_constants (nm : Namer) (n : NS) (name : Str) (ts : List PTy) (d : List Json) (h : NamedTy n (.union name ts d)) :
    tokens (unionConstText nm n ((PTy.union name ts d).goName nm n) ts) =
      some (enumToks ((PTy.union name ts d).goName nm n ++ "TypeEnum".toList) "int".toList
        (((ts.map fun t => ((PTy.union name ts d).goName nm n ++ "TypeEnum".toList) ++ t.goName nm n).zipIdx).filter
          fun c => decide (some c.2 ≠ ts.findIdx? nullTy))) := by
  have hx := goName_exported nm n _ h
  have hn : ∀ t ∈ ts, NamedTy n t := by
    simp only [NamedTy] at h
    exact namedTys_mem h.2
  generalize (PTy.union name ts d).goName nm n = g at *
  have hm : ∀ m, some m ∈ constNames nm n ts → Exported m := by
    have : ∀ us : List PTy, (∀ t ∈ us, NamedTy n t) → ∀ m, some m ∈ constNames nm n us → ∃ t ∈ us, m = t.goName nm n := by
      intro us
      induction us with
      | nil => intro _ m h; simp only [constNames] at h; cases h
      | cons t us ih =>
        intro hu m hmem
        unfold constNames at hmem
        split at hmem
        · cases hmem
        · rename_i heq
          cases heq
          rcases List.mem_cons.1 hmem with hmem | hmem
          · cases hmem
          · obtain ⟨u, hu', e⟩ := List.mem_map.1 hmem
            cases e
            exact ⟨u, by simp [hu'], rfl⟩
        · rename_i heq
          cases heq
          rcases List.mem_cons.1 hmem with hmem | hmem
          · cases hmem; exact ⟨t, by simp, rfl⟩
          · obtain ⟨u, hu', e⟩ := ih (fun u hu' => hu u (by simp [hu'])) m hmem
            exact ⟨u, by simp [hu'], e⟩
    intro m hmem
    obtain ⟨t, ht, rfl⟩ := this ts hn m hmem
    exact goName_exported nm n t (hn t ht)
  have ht := toks_unionConsts hx (constNames nm n ts) hm
  rw [constNames_spec] at ht
  have e : (ts.findIdx? nullTy).map (· + 0) = ts.findIdx? nullTy := by cases ts.findIdx? nullTy <;> rfl
  rw [e] at ht
  refine tokens_of ?_ ht
  have hT : Clean (unionEnumType g) := clean_append (clean_exported hx) (clean_const (by decide +kernel))
  have hmt : ∀ (ms : List (Option Str)) (i : Nat), (∀ m, some m ∈ ms → Exported m) → Clean (memberTexts (unionEnumType g) i ms) := by
    intro ms
    induction ms with
    | nil => intro i _ c h; simp only [memberTexts] at h; cases h
    | cons m ms ih =>
      intro i hms
      have hr := ih (i + 1) (fun x hx => hms x (by simp [hx]))
      cases m with
      | none => rw [memberTexts]; exact clean_append (clean_const (by decide +kernel)) hr
      | some m =>
        rw [memberTexts]
        exact clean_append (clean_append hT (clean_exported (hms m (by simp)))) (clean_append (clean_const (by decide +kernel)) (clean_append hT
          (clean_append (clean_const (by decide +kernel)) (clean_append (clean_names fun c hc => (wordChar_iff c).1 ((digits_word i).2.1 c hc))
          (clean_append (clean_const (by decide +kernel)) hr)))))
  unfold unionConstText
  exact clean_append (clean_const (by decide +kernel)) (clean_append hT (clean_append (clean_const (by decide +kernel)) (clean_append (hmt _ 0 hm)
    (clean_const (by decide +kernel)))))

/-- C91: `XAvroCRC64Fingerprint` is the constant string of the bytes of the fingerprint, whatever they are. -/
theorem fingerprint_constant (nm : Namer) (print : Char → Bool) (hp : Printing print) (d : PDef) (hname : Dotted d.name.str) (fp : List Byte) :
    tokens (fingerprintText print (d.goName nm) fp) = some (constToks (d.goName nm ++ "AvroCRC64Fingerprint".toList) fp) := by
  have hx : Exported (d.goName nm) := publicName_exported nm hname
  refine tokens_of ?_ (toks_fingerprint hp hx fp)
  exact clean_append (clean_const (by decide +kernel)) (clean_append (clean_append (clean_exported hx) (clean_const (by decide +kernel)))
    (clean_append (clean_const (by decide +kernel)) (clean_append (clean_quoted hp fp) (clean_const (by decide +kernel)))))

/-- C91: `Schema()` of a record returns the bytes of the schema, whatever characters the schema holds. -/
theorem schema_constant (nm : Namer) (print : Char → Bool) (hp : Printing print) (d : PDef) (hname : Dotted d.name.str) (schema : List Byte) :
    tokens (schemaText print (d.goName nm) schema) = some (methodToks [.word (d.goName nm)] "Schema".toList schema) := by
  have hx : Exported (d.goName nm) := publicName_exported nm hname
  refine tokens_of ?_ (toks_method hp schema (fun b r ts hr ht => toks_exported hx hr ht) (by decide +kernel) (by decide +kernel))
  exact clean_append (clean_const (by decide +kernel)) (clean_append (clean_exported hx) (clean_append (clean_const (by decide +kernel))
    (clean_append (clean_quoted hp schema) (clean_const (by decide +kernel)))))

/-- C91: `Schema()` of a union, on the pointer or the value according to its type. -/
theorem union_schema_constant (nm : Namer) (n : NS) (print : Char → Bool) (hp : Printing print) (name : Str) (ts : List PTy) (d : List Json)
    (h : NamedTy n (.union name ts d)) (schema : List Byte) :
    tokens (schemaText print ((PTy.union name ts d).goType nm n) schema) =
      some (methodToks (goTypeOf nm n (.union name ts d)).toks "Schema".toList schema) := by
  refine tokens_of ?_ (toks_method hp schema (fun b r us hr ht => toks_type nm n _ b r us h hr ht) (by decide +kernel) (by decide +kernel))
  exact clean_append (clean_const (by decide +kernel)) (clean_append (clean_goType nm n _ h) (clean_append (clean_const (by decide +kernel))
    (clean_append (clean_quoted hp schema) (clean_const (by decide +kernel)))))

/-- C91: `SchemaName()` returns the full Avro name. -/
theorem schemaName_constant (nm : Namer) (print : Char → Bool) (hp : Printing print) (d : PDef) (hname : Dotted d.name.str) :
    tokens (schemaNameText print (d.goName nm) (utf8 d.name.str)) =
      some (methodToks [.word (d.goName nm)] "SchemaName".toList (bytesOf d.name.str)) := by
  have hx : Exported (d.goName nm) := publicName_exported nm hname
  rw [← utf8_bytesOf]
  refine tokens_of ?_ (toks_method hp _ (fun b r ts hr ht => toks_exported hx hr ht) (by decide +kernel) (by decide +kernel))
  exact clean_append (clean_const (by decide +kernel)) (clean_append (clean_exported hx) (clean_append (clean_const (by decide +kernel))
    (clean_append (clean_quoted hp _) (clean_const (by decide +kernel)))))

/-- C91: in the JSON that a record gives, the key of a field is its Avro name. -/
theorem json_key_constant (nm : Namer) (print : Char → Bool) (hp : Printing print) (f : PField) (hn : LegalName f.name) (hl : LetterFirst f.name) :
    tokens (marshalText nm print f) = some [w "output", .sign '[', .text (bytesOf f.name), .sign ']', .sign ',', w "err", .sign '=', w "json",
      .sign '.', w "Marshal", .sign '(', w "r", .sign '.', .word (fieldGoName nm f.name), .sign ')', .sign ';'] := by
  refine tokens_of ?_ (toks_marshal nm hp hn hl)
  exact clean_append (clean_const (by decide +kernel)) (clean_append (clean_quoted hp _) (clean_append (clean_const (by decide +kernel))
    (clean_append (clean_exported (field_exported nm hn hl)) (clean_const (by decide +kernel)))))

/-- C91: the key of a member of a union is the member's full name. Partial: the key is not escaped. -/
theorem union_key_constant_partial (key : Str) (hk : Dotted key) :
    tokens (unionKeyText key) = some [w "fields", .sign '[', .text (bytesOf key), .sign ']', .sign ';'] := by
  refine tokens_of ?_ (toks_key fun c hc => name_plain (dotted_chars hk c hc))
  exact clean_append (clean_const (by decide +kernel)) (clean_cons (by decide) (clean_append (fun c hc => forbidden_name (dotted_chars hk c hc))
    (clean_cons (by decide) (clean_const (by decide +kernel)))))

/-- C91, enums: the constants of the symbols are their positions, and documentation adds nothing. -/
theorem enum_constants (nm : Namer) (d : PDef) (syms : List Str) (doc dflt : Str) (hk : d.kind = .enum syms doc dflt) (hname : Dotted d.name.str)
    (hdoc : ∀ c ∈ doc, forbidden c = false) (hs : ∀ s ∈ syms, LegalName s) :
    tokens (enumText nm (d.goName nm) doc syms) =
      some (enumToks (d.goName nm) "int32".toList ((syms.map (symbolGoName nm (d.goName nm))).zipIdx)) := by
  have hx : Exported (d.goName nm) := publicName_exported nm hname
  refine tokens_of ?_ (toks_enum nm hx doc syms hs)
  generalize d.goName nm = g at *
  have hst : ∀ (ss : List Str) (i : Nat), (∀ s ∈ ss, LegalName s) → Clean (symbolTexts nm g i ss) := by
    intro ss
    induction ss with
    | nil => intro i _ c h; simp only [symbolTexts] at h; cases h
    | cons s ss ih =>
      intro i h
      rw [symbolTexts]
      exact clean_append (clean_exported (symbol_word nm hx (h s (by simp)))) (clean_append (clean_const (by decide +kernel))
        (clean_append (clean_exported hx) (clean_append (clean_const (by decide +kernel))
        (clean_append (clean_names fun c hc => (wordChar_iff c).1 ((digits_word i).2.1 c hc)) (clean_append (clean_const (by decide +kernel))
        (ih (i + 1) fun x hx => h x (by simp [hx])))))))
  exact clean_append (clean_docLine hdoc) (clean_append (clean_const (by decide +kernel)) (clean_append (clean_exported hx)
    (clean_append (clean_const (by decide +kernel)) (clean_append (hst syms 0 hs) (clean_const (by decide +kernel))))))

/-- C91, enums: `String()` gives each constant the bytes of its symbol. -/
theorem enum_strings (nm : Namer) (print : Char → Bool) (hp : Printing print) (d : PDef) (syms : List Str) (hname : Dotted d.name.str)
    (hs : ∀ s ∈ syms, LegalName s) : tokens (stringText nm print (d.goName nm) syms) =
      some ([w "func", .sign '(', w "e", .word (d.goName nm), .sign ')', w "String", .sign '(', .sign ')', w "string", .sign '{', w "switch", w "e", .sign '{'] ++
       (syms.flatMap (fun s => [w "case", .word (symbolGoName nm (d.goName nm) s), .sign ':', w "return", .text (bytesOf s), .sign ';']) ++
       [.sign '}', .sign ';', w "return", .text (bytesOf "unknown".toList), .sign ';', .sign '}', .sign ';'])) := by
  have hx : Exported (d.goName nm) := publicName_exported nm hname
  refine tokens_of ?_ (toks_string nm hp hx syms hs)
  generalize d.goName nm = g at *
  have hst : ∀ (ss : List Str), (∀ s ∈ ss, LegalName s) → Clean (stringCases nm print g ss) := by
    intro ss
    induction ss with
    | nil => intro _ c h; simp only [stringCases] at h; cases h
    | cons s ss ih =>
      intro h
      rw [stringCases]
      exact clean_append (clean_const (by decide +kernel)) (clean_append (clean_exported (symbol_word nm hx (h s (by simp))))
        (clean_append (clean_const (by decide +kernel)) (clean_append (clean_quoted hp _) (clean_append (clean_const (by decide +kernel))
        (ih fun x hx => h x (by simp [hx]))))))
  exact clean_append (clean_const (by decide +kernel)) (clean_append (clean_exported hx) (clean_append (clean_const (by decide +kernel))
    (clean_append (hst syms hs) (clean_append (clean_const (by decide +kernel)) (clean_cons (by decide) (clean_append (clean_const (by decide +kernel))
    (clean_cons (by decide) (clean_const (by decide +kernel)))))))))

/-- C91, enums: `NewXValue` gives each symbol its constant; other strings give the default, or an error. -/
theorem enum_values (nm : Namer) (print : Char → Bool) (hp : Printing print) (d : PDef) (syms : List Str) (dflt : Str) (hname : Dotted d.name.str)
    (hs : ∀ s ∈ syms, LegalName s) (hd : dflt = [] ∨ LegalName dflt) : tokens (valueText nm print (d.goName nm) dflt syms) =
      some ([w "func", .word ("New".toList ++ d.goName nm ++ "Value".toList), .sign '(', w "raw", w "string", .sign ')', .sign '(', w "r",
        .word (d.goName nm), .sign ',', w "err", w "error", .sign ')', .sign '{', w "switch", w "raw", .sign '{'] ++
       (syms.flatMap (fun s => [w "case", .text (bytesOf s), .sign ':', w "return", .word (symbolGoName nm (d.goName nm) s), .sign ',', w "nil", .sign ';']) ++
       ([.sign '}', .sign ';'] ++
        ((if dflt = [] then [w "return", .sign '-', w "1", .sign ',', w "fmt", .sign '.', w "Errorf", .sign '(',
            .text (bytesOf ("invalid value for ".toList ++ d.goName nm ++ ": '%s'".toList)), .sign ',', w "raw", .sign ')', .sign ';']
          else [w "return", .word (symbolGoName nm (d.goName nm) dflt), .sign ',', w "nil", .sign ';']) ++ [.sign '}', .sign ';'])))) := by
  have hx : Exported (d.goName nm) := publicName_exported nm hname
  refine tokens_of ?_ (toks_value nm hp hx syms hs hd)
  generalize d.goName nm = g at *
  have hst : ∀ (ss : List Str), (∀ s ∈ ss, LegalName s) → Clean (valueCases nm print g ss) := by
    intro ss
    induction ss with
    | nil => intro _ c h; simp only [valueCases] at h; cases h
    | cons s ss ih =>
      intro h
      rw [valueCases]
      exact clean_append (clean_const (by decide +kernel)) (clean_append (clean_quoted hp _) (clean_append (clean_const (by decide +kernel))
        (clean_append (clean_exported (symbol_word nm hx (h s (by simp)))) (clean_append (clean_const (by decide +kernel))
        (ih fun x hx => h x (by simp [hx]))))))
  have he : Clean (valueElse nm g dflt) := by
    unfold valueElse
    by_cases h : dflt = []
    · rw [if_pos h]
      exact clean_append (clean_const (by decide +kernel)) (clean_cons (by decide) (clean_append (clean_append (clean_append
        (clean_const (by decide +kernel)) (clean_exported hx)) (clean_const (by decide +kernel))) (clean_cons (by decide) (clean_const (by decide +kernel)))))
    · rw [if_neg h]
      exact clean_append (clean_const (by decide +kernel)) (clean_append (clean_exported (symbol_word nm hx (hd.resolve_left h)))
        (clean_const (by decide +kernel)))
  exact clean_append (clean_const (by decide +kernel)) (clean_append (clean_append (clean_append (clean_const (by decide +kernel)) (clean_exported hx))
    (clean_const (by decide +kernel))) (clean_append (clean_const (by decide +kernel)) (clean_append (clean_exported hx)
    (clean_append (clean_const (by decide +kernel)) (clean_append (hst syms hs) (clean_append (clean_const (by decide +kernel))
    (clean_append he (clean_const (by decide +kernel)))))))))

/-- C91: the Go type of a fixed is an array of its size. -/
theorem fixed_declaration (nm : Namer) (d : PDef) (hname : Dotted d.name.str) (size : Nat) : tokens (fixedText (d.goName nm) size) =
    some [w "type", .word (d.goName nm), .sign '[', number size, .sign ']', w "byte", .sign ';'] := by
  have hx : Exported (d.goName nm) := publicName_exported nm hname
  refine tokens_of ?_ (toks_fixed hx size)
  exact clean_append (clean_const (by decide +kernel)) (clean_append (clean_exported hx) (clean_append (clean_const (by decide +kernel))
    (clean_append (clean_names fun c hc => (wordChar_iff c).1 ((digits_word size).2.1 c hc)) (clean_const (by decide +kernel)))))

/-! What does not hold. -/

/-- What `strconv.IsPrint` holds for among ASCII; no other character counts here. -/
def asciiPrint (c : Char) : Bool := 32 ≤ c.toNat && c.toNat < 127

theorem asciiPrint_printing : Printing asciiPrint where
  names c h := by
    rw [wordChar_iff, nameChar_iff] at h
    simp only [asciiPrint, Bool.and_eq_true, decide_eq_true_eq]
    omega
  newline := by decide
  others c h := by
    simp only [forbidden, Bool.or_eq_true, beq_iff_eq] at h
    rcases h with h | h <;> simp [asciiPrint, h]

/-- A field of type int. -/
def intField (name doc tags : String) : PField := ⟨name.toList, .prim .int (.str "int".toList), none, [], doc.toList, tags.toList, []⟩

/-- C90 fails for tags: a backquote in `golang.tags` ends the tag, and what follows is code. Here the struct gets
a member `Evil` that no field of the schema stands for. -/
theorem tag_injects : tokens (structText .simple {} asciiPrint "R".toList [] [intField "a" "" "x:\"\"`; Evil string `y:\"\""]) =
    some (structToks "R".toList [⟨"A".toList, .named "int32".toList, some (bytesOf "x:\"\"".toList)⟩,
      ⟨"Evil".toList, .named "string".toList, some (bytesOf "y:\"\" json:\"a\"".toList)⟩]) := by decide +kernel

/-- C90 fails for documentation with a NUL or a byte order mark: the file that is generated is no Go source. -/
theorem doc_refused (nm : Namer) (n : NS) (print : Char → Bool) (name doc : Str) (fs : List PField) (h : ∃ c ∈ doc, forbidden c = true) :
    tokens (structText nm n print name doc fs) = none := by
  obtain ⟨c, hc, hf⟩ := h
  unfold tokens
  rw [if_pos]
  rw [List.any_eq_true]
  refine ⟨c, ?_, hf⟩
  unfold structText docLine
  have hcd : c ∈ docText doc := by
    simp only [docText, List.mem_map]
    refine ⟨c, hc, ?_⟩
    rw [if_neg]
    rintro rfl
    exact absurd hf (by decide)
  rw [if_neg (by intro e; rw [e] at hcd; cases hcd)]
  exact List.mem_append_left _ (List.mem_append_right _ hcd)

/-- C91 fails for the keys of union members with names that are no Avro names, which the program accepts: a quote
ends the literal. -/
theorem union_key_injects : tokens (unionKeyText "a\", \"b".toList) =
    some [w "fields", .sign '[', .text (bytesOf "a".toList), .sign ',', .text (bytesOf "b".toList), .sign ']', .sign ';'] := by decide +kernel

/-! The hypotheses are met. -/

/-- A record with documentation of two lines that looks like code. -/
def sampleDef : PDef := ⟨⟨"com.shop".toList, "order".toList⟩, [],
  .record [intField "id" "} func init() {\n panic(1) }" "xml:\"id\"", ⟨"note".toList,
    .union [] [.prim .null (.str "null".toList), .prim .string (.str "string".toList)] [], none, [], [], [], []⟩] "an order\n*/ `\"".toList, []⟩

example : tokens (structText .simple {} asciiPrint (sampleDef.goName .simple) "an order\n*/ `\"".toList
    [intField "id" "} func init() {\n panic(1) }" "xml:\"id\"", ⟨"note".toList,
      .union [] [.prim .null (.str "null".toList), .prim .string (.str "string".toList)] [], none, [], [], [], []⟩]) =
    some (structToks "Order".toList [⟨"Id".toList, .named "int32".toList, some (bytesOf "xml:\"id\" json:\"id\"".toList)⟩,
      ⟨"Note".toList, .pointer (.named "UnionNullString".toList), some (bytesOf "json:\"note\"".toList)⟩]) := by decide +kernel

/-- The text itself. -/
example : structText .simple {} asciiPrint "Order".toList "an order\nof".toList [intField "id" "x" ""] =
    "// an order of\ntype Order struct {\n// x\n\tId int32 `json:\"id\"`\n\t\n}\n".toList := by decide +kernel

example : Dotted sampleDef.name.str ∧ (∀ c ∈ "an order\n*/ `\"".toList, forbidden c = false) ∧ Printing asciiPrint := by
  refine ⟨?_, by decide +kernel, asciiPrint_printing⟩
  exact .cons (p := "com".toList) (s := "shop.order".toList) (by decide +kernel) ⟨[], 'c', "om".toList, rfl, by simp, by decide⟩
    (.cons (p := "shop".toList) (s := "order".toList) (by decide +kernel) ⟨[], 's', "hop".toList, rfl, by simp, by decide⟩
      (.one (by decide +kernel) ⟨[], 'o', "rder".toList, rfl, by simp, by decide⟩))

example : Plainly {} (intField "id" "} func init() {\n panic(1) }" "xml:\"id\"") where
  name := by decide +kernel
  letter := ⟨[], 'i', ['d'], by decide +kernel, by decide, by decide⟩
  ty := by simp only [intField, NamedTy]
  doc := by decide +kernel
  tags := by decide +kernel

end Verif.Props
