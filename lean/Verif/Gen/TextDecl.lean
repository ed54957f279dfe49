import Verif.Gen.TextProof
/-
The tokens of whole declarations.
-/
namespace Verif
open Spec Spec.Go

theorem toks_docline {b b' : Bool} (doc : Str) {c p c' s : Str} {us ts : List Tok} (n : Nat) (hc : c = p ++ '\n' :: c') (hp : ∀ x ∈ p, x = ' ')
    (hf : frag n b ('\n' :: c') = some (us, b')) (h : Toks b' s ts) : Toks b (docLine doc ++ (c ++ s)) (us ++ ts) := by
  subst hc
  rw [List.append_assoc, List.cons_append]
  exact toks_doc doc hp (toks_frag n hf h)

theorem apart_space (s : Str) : Apart (" ".toList ++ s) := apart_append s (by decide +kernel)

theorem field_exported (nm : Namer) {s : Str} (h : LegalName s) (hl : LetterFirst s) : Exported (fieldGoName nm s) := by
  have he := publicName_plain nm (legal_chars h) hl
  unfold fieldGoName
  by_cases hm : nm.publicName s ∈ invalidFieldNames
  · rw [if_pos hm]
    exact exported_before (by decide +kernel) he
  · rw [if_neg hm]; exact he

/-- The text of the tag of a field with a legal name. -/
theorem tagText_plain {print : Char → Bool} (hp : Printing print) {f : PField} (h : LegalName f.name) : f.tagText print =
    (if f.tags = [] then [] else f.tags ++ [' ']) ++ ("json:".toList ++ '"' :: (f.name ++ ['"'])) := by
  unfold PField.tagText
  rw [quoted_names hp (legal_chars h)]
  by_cases ht : f.tags = []
  · rw [if_pos ht, if_pos ht]; rfl
  · rw [if_neg ht, if_neg ht, List.append_assoc]; rfl

theorem json_tag : ∀ c ∈ "json:".toList, c ≠ '`' ∧ c ≠ '\r' ∧ forbidden c = false := by decide +kernel

theorem tagText_chars {print : Char → Bool} (hp : Printing print) {f : PField} (h : LegalName f.name)
    (ht : ∀ c ∈ f.tags, c ≠ '`' ∧ c ≠ '\r' ∧ forbidden c = false) :
    ∀ c ∈ f.tagText print, c ≠ '`' ∧ c ≠ '\r' ∧ forbidden c = false := by
  rw [tagText_plain hp h]
  have hj := json_tag
  generalize "json:".toList = j at *
  intro c hc
  simp only [List.mem_append, List.mem_cons, List.not_mem_nil, or_false] at hc
  have hn : ∀ c ∈ f.name, c ≠ '`' ∧ c ≠ '\r' ∧ forbidden c = false := fun c hc =>
    have := legal_chars h c hc
    ⟨nameChar_ne this (by decide), nameChar_ne this (by decide), forbidden_name (.inl this)⟩
  rcases hc with hc | hc | rfl | hc | rfl
  · by_cases he : f.tags = []
    · rw [if_pos he] at hc; cases hc
    · rw [if_neg he] at hc
      rcases List.mem_append.1 hc with hc | hc
      · exact ht c hc
      · rw [List.mem_singleton] at hc; subst hc; decide
  · exact hj c hc
  · decide
  · exact hn c hc
  · decide

theorem toks_field (nm : Namer) (n : NS) {print : Char → Bool} (hp : Printing print) {f : PField} (hn : LegalName f.name)
    (hl : LetterFirst f.name) (hty : NamedTy n f.ty) (htag : ∀ c ∈ f.tags, c ≠ '`' ∧ c ≠ '\r' ∧ forbidden c = false)
    {r : Str} {ts : List Tok} (h : Toks false r ts) : Toks false (f.declText nm n print ++ r)
      (Member.toks ⟨fieldGoName nm f.name, goTypeOf nm n f.ty, some (bytesOf (f.tagText print))⟩ ++ ts) := by
  have hc := tagText_chars hp hn htag
  have hfilter : (f.tagText print).filter (· ≠ '\r') = f.tagText print := by
    rw [List.filter_eq_self]
    intro c hx
    simpa using (hc c hx).2.1
  have h1 : Toks true ("\n\t".toList ++ r) ([.sign ';'] ++ ts) := toks_frag 30 (by decide +kernel) h
  have h2 := toks_raw (b := true) (fun hx => (hc '`' hx).1 rfl) h1
  rw [hfilter] at h2
  have h3 := toks_frag 30 (b := true) (c := " ".toList) (us := []) (by decide +kernel) h2
  have h4 := toks_type nm n f.ty true _ _ hty (apart_space _) h3
  have h5 := toks_frag 30 (b := true) (c := " ".toList) (us := []) (by decide +kernel) h4
  have h6 := toks_exported (b := false) (field_exported nm hn hl) (apart_space _) h5
  have h7 := toks_docline (b := false) f.doc (c := "\n\t".toList) (p := []) (c' := "\t".toList) (us := []) 4 (by decide +kernel)
    (fun _ h => by cases h) (by decide +kernel) h6
  have e : f.declText nm n print ++ r = docLine f.doc ++ ("\n\t".toList ++ (fieldGoName nm f.name ++ (" ".toList ++ (f.ty.goType nm n ++
      (" ".toList ++ ('`' :: (f.tagText print ++ '`' :: ("\n\t".toList ++ r)))))))) := by
    unfold PField.declText
    generalize "\n\t".toList = a
    generalize " ".toList = b
    simp only [List.append_assoc, List.cons_append]
  rw [e]
  have e2 : Member.toks ⟨fieldGoName nm f.name, goTypeOf nm n f.ty, some (bytesOf (f.tagText print))⟩ ++ ts =
      [] ++ Tok.word (fieldGoName nm f.name) :: ([] ++ ((goTypeOf nm n f.ty).toks ++ ([] ++ Tok.text (bytesOf (f.tagText print)) ::
        ([.sign ';'] ++ ts)))) := by
    simp only [Member.toks, Option.map_some, Option.toList_some, List.append_assoc, List.cons_append, List.nil_append]
  rw [e2]
  exact h7

theorem clean_field (nm : Namer) (n : NS) {print : Char → Bool} (hp : Printing print) {f : PField} (hn : LegalName f.name)
    (hl : LetterFirst f.name) (hty : NamedTy n f.ty) (hdoc : Clean f.doc)
    (htag : ∀ c ∈ f.tags, c ≠ '`' ∧ c ≠ '\r' ∧ forbidden c = false) : Clean (f.declText nm n print) := by
  unfold PField.declText
  have ha : Clean "\n\t".toList := clean_const (by decide +kernel)
  have hb : Clean " ".toList := clean_const (by decide +kernel)
  generalize "\n\t".toList = a at *
  generalize " ".toList = b at *
  refine clean_append (clean_docLine hdoc) (clean_append ha (clean_append (clean_exported (field_exported nm hn hl)) (clean_append hb
    (clean_append (clean_goType nm n _ hty) (clean_append hb (clean_cons (by decide) (clean_append ?_ (clean_cons (by decide) ha))))))))
  exact fun c hc => (tagText_chars hp hn htag c hc).2.2

theorem toks_struct {name : Str} (doc : Str) {body : Str} {us : List Tok} (hname : Exported name)
    (h : Toks false body us) : Toks false (docLine doc ++ ("\ntype ".toList ++ (name ++ (" struct {\n".toList ++ body))))
      (w "type" :: .word name :: w "struct" :: .sign '{' :: us) := by
  have h1 := toks_frag 30 (b := true) (c := " struct {\n".toList) (us := [w "struct", .sign '{']) (by decide +kernel) h
  have h2 := toks_exported (b := false) hname (apart_append _ (by decide +kernel)) h1
  exact toks_docline (b := false) doc (c := "\ntype ".toList) (p := []) (c' := "type ".toList) (us := [w "type"]) 30 (by decide +kernel)
    (fun _ h => by cases h) (by decide +kernel) h2

theorem toks_fields (nm : Namer) (n : NS) {print : Char → Bool} (hp : Printing print) {r : Str} {ts : List Tok} (h : Toks false r ts) :
    ∀ (fs : List PField), (∀ f ∈ fs, LegalName f.name ∧ LetterFirst f.name ∧ NamedTy n f.ty ∧
      ∀ c ∈ f.tags, c ≠ '`' ∧ c ≠ '\r' ∧ forbidden c = false) →
    Toks false (fs.flatMap (PField.declText nm n print) ++ r)
      ((fs.map fun f => Member.mk (fieldGoName nm f.name) (goTypeOf nm n f.ty) (some (bytesOf (f.tagText print)))).flatMap Member.toks ++ ts)
  | [], _ => h
  | f :: fs, hf => by
    obtain ⟨h1, h2, h3, h4⟩ := hf f (by simp)
    rw [List.flatMap_cons, List.map_cons, List.flatMap_cons, List.append_assoc, List.append_assoc]
    exact toks_field nm n hp h1 h2 h3 h4 (toks_fields nm n hp h fs (fun g hg => hf g (by simp [hg])))

theorem toks_end : Toks false "\n}\n".toList [.sign '}', .sign ';'] := by
  have h : Toks false [] [] := toks_nil false
  have := toks_frag 30 (b := false) (c := "\n}\n".toList) (us := [.sign '}', .sign ';']) (by decide +kernel) h
  simpa only [List.append_nil] using this

theorem toks_nothing : Toks false [] [] := toks_nil false

theorem toks_last {b : Bool} {c : Str} {us : List Tok} (n : Nat) (h : frag n b c = some (us, false)) : Toks b c us := by
  have := toks_frag n h toks_nothing
  simpa only [List.append_nil] using this

/-! Constants. -/

theorem toks_fingerprint {print : Char → Bool} (hp : Printing print) {name : Str} (hname : Exported name) (fp : List Byte) :
    Toks false (fingerprintText print name fp) (constToks (name ++ "AvroCRC64Fingerprint".toList) fp) := by
  have h1 : Toks true "\n".toList [.sign ';'] := toks_last 30 (by decide +kernel)
  have h2 := toks_quoted (b := false) hp.newline fp h1
  have h3 := toks_frag 30 (b := true) (c := " = ".toList) (us := [.sign '=']) (by decide +kernel) h2
  have hx : Exported (name ++ "AvroCRC64Fingerprint".toList) := exported_append hname (by decide +kernel)
  have h4 := toks_exported (b := false) hx (apart_append _ (by decide +kernel)) h3
  exact toks_frag 30 (b := false) (c := "\nconst ".toList) (us := [w "const"]) (by decide +kernel) h4

theorem toks_method {print : Char → Bool} (hp : Printing print) {type : Str} {tt : List Tok} {c : Str} {m : Str} (bs : List Byte)
    (htype : ∀ (b : Bool) (r : Str) (ts : List Tok), Apart r → Toks true r ts → Toks b (type ++ r) (tt ++ ts)) (hc : apartB c = true)
    (hm : frag 20 true c = some ([.sign ')', .word m, .sign '(', .sign ')', w "string", .sign '{', w "return"], true)) :
    Toks false ("\nfunc (r ".toList ++ (type ++ (c ++ (quoted print bs ++ "\n}\n".toList)))) (methodToks tt m bs) := by
  have h1 : Toks true "\n}\n".toList [.sign ';', .sign '}', .sign ';'] := toks_last 30 (by decide +kernel)
  have h2 := toks_quoted (b := true) hp.newline bs h1
  have h3 := toks_frag 20 hm h2
  have h4 := htype true _ _ (apart_append _ hc) h3
  have h5 := toks_frag 30 (b := false) (c := "\nfunc (r ".toList) (us := [w "func", .sign '(', w "r"]) (by decide +kernel) h4
  have e : methodToks tt m bs = [w "func", .sign '(', w "r"] ++ (tt ++ ([.sign ')', .word m, .sign '(', .sign ')', w "string", .sign '{', w "return"] ++
      .text bs :: [.sign ';', .sign '}', .sign ';'])) := by
    simp only [methodToks, List.append_assoc, List.cons_append, List.nil_append]
  rw [e]
  exact h5

/-! Enums. -/

theorem symbol_word (nm : Namer) {type sym : Str} (ht : Exported type) (hs : LegalName sym) : Exported (symbolGoName nm type sym) := by
  have hx : Exported (type ++ title sym) := by
    refine exported_append ht ?_
    cases sym with
    | nil => cases hs
    | cons c cs =>
      have hc := legal_chars hs
      rw [title_cons hc]
      intro x hx
      rcases List.mem_cons.1 hx with rfl | hx
      · exact upper_nameChar (hc c (by simp))
      · exact hc x (by simp [hx])
  exact publicName_plain nm (exported_chars hx) (exported_letterFirst hx)

/-- The symbols with their numbers. -/
def numbered (f : Str → Str) : Nat → List Str → List (Str × Nat)
  | _, [] => []
  | i, s :: ss => (f s, i) :: numbered f (i + 1) ss

theorem numbered_eq (f : Str → Str) : ∀ (ss : List Str) (i : Nat), numbered f i ss = (ss.map f).zipIdx i
  | [], i => rfl
  | s :: ss, i => by rw [numbered, numbered_eq f ss, List.map_cons, List.zipIdx_cons]

theorem toks_symbols (nm : Namer) {type : Str} (ht : Exported type) {r : Str} {ts : List Tok} (h : Toks false r ts) :
    ∀ (syms : List Str) (i : Nat), (∀ s ∈ syms, LegalName s) → Toks false (symbolTexts nm type i syms ++ r)
      ((numbered (symbolGoName nm type) i syms).flatMap (fun c => [.word c.1, .word type, .sign '=', number c.2, .sign ';']) ++ ts)
  | [], i, _ => h
  | s :: ss, i, hs => by
    have h0 := toks_symbols nm ht h ss (i + 1) (fun x hx => hs x (by simp [hx]))
    have h1 := toks_frag 30 (b := true) (c := "\n".toList) (us := [.sign ';']) (by decide +kernel) h0
    have h2 := toks_number (b := false) i (apart_append _ (by decide +kernel)) h1
    have h3 := toks_frag 30 (b := true) (c := " = ".toList) (us := [.sign '=']) (by decide +kernel) h2
    have h4 := toks_exported (b := true) ht (apart_append _ (by decide +kernel)) h3
    have h5 := toks_frag 30 (b := true) (c := " ".toList) (us := []) (by decide +kernel) h4
    have h6 := toks_exported (b := false) (symbol_word nm ht (hs s (by simp))) (apart_space _) h5
    have e : symbolTexts nm type i (s :: ss) ++ r = symbolGoName nm type s ++ (" ".toList ++ (type ++ (" = ".toList ++ (Nat.toDigits 10 i ++
        ("\n".toList ++ (symbolTexts nm type (i + 1) ss ++ r)))))) := by
      rw [symbolTexts]
      generalize "\n".toList = a
      generalize " ".toList = b
      generalize " = ".toList = c
      simp only [List.append_assoc]
    rw [e, numbered, List.flatMap_cons]
    exact h6

theorem toks_enum (nm : Namer) {type : Str} (ht : Exported type) (doc : Str) (syms : List Str) (hs : ∀ s ∈ syms, LegalName s) :
    Toks false (enumText nm type doc syms) (enumToks type "int32".toList ((syms.map (symbolGoName nm type)).zipIdx)) := by
  have h1 : Toks false ")\n".toList [.sign ')', .sign ';'] := toks_last 30 (by decide +kernel)
  have h2 := toks_symbols nm ht h1 syms 0 hs
  have h3 := toks_frag 30 (b := true) (c := " int32\n\nconst (\n".toList) (us := [w "int32", .sign ';', w "const", .sign '(']) (by decide +kernel) h2
  have h4 := toks_exported (b := false) ht (apart_append _ (by decide +kernel)) h3
  have h5 := toks_docline (b := false) doc (c := "  \ntype ".toList) (p := [' ', ' ']) (c' := "type ".toList) (us := [w "type"]) 30 (by decide +kernel)
    (by decide) (by decide +kernel) h4
  rw [← numbered_eq]
  exact h5

theorem toks_stringCases (nm : Namer) {print : Char → Bool} (hp : Printing print) {type : Str} (ht : Exported type) {r : Str} {ts : List Tok}
    (h : Toks false r ts) : ∀ (syms : List Str), (∀ s ∈ syms, LegalName s) → Toks false (stringCases nm print type syms ++ r)
      (syms.flatMap (fun s => [w "case", .word (symbolGoName nm type s), .sign ':', w "return", .text (bytesOf s), .sign ';']) ++ ts)
  | [], _ => h
  | s :: ss, hs => by
    have h0 := toks_stringCases nm hp ht h ss (fun x hx => hs x (by simp [hx]))
    have h1 := toks_frag 30 (b := true) (c := "\n\t".toList) (us := [.sign ';']) (by decide +kernel) h0
    have h2 := toks_quoted (b := true) hp.newline (utf8 s) h1
    have h3 := toks_frag 30 (b := true) (c := ":\n\t\treturn ".toList) (us := [.sign ':', w "return"]) (by decide +kernel) h2
    have h4 := toks_exported (b := false) (symbol_word nm ht (hs s (by simp))) (apart_append _ (by decide +kernel)) h3
    have h5 := toks_frag 30 (b := false) (c := "case ".toList) (us := [w "case"]) (by decide +kernel) h4
    have e : stringCases nm print type (s :: ss) ++ r = "case ".toList ++ (symbolGoName nm type s ++ (":\n\t\treturn ".toList ++
        (quoted print (utf8 s) ++ ("\n\t".toList ++ (stringCases nm print type ss ++ r))))) := by
      rw [stringCases]
      generalize "case ".toList = a
      generalize ":\n\t\treturn ".toList = b
      generalize "\n\t".toList = c
      simp only [List.append_assoc]
    rw [e, List.flatMap_cons]
    rw [utf8_bytesOf] at h5
    rw [utf8_bytesOf]
    exact h5

theorem toks_string (nm : Namer) {print : Char → Bool} (hp : Printing print) {type : Str} (ht : Exported type) (syms : List Str)
    (hs : ∀ s ∈ syms, LegalName s) : Toks false (stringText nm print type syms)
      ([w "func", .sign '(', w "e", .word type, .sign ')', w "String", .sign '(', .sign ')', w "string", .sign '{', w "switch", w "e", .sign '{'] ++
       (syms.flatMap (fun s => [w "case", .word (symbolGoName nm type s), .sign ':', w "return", .text (bytesOf s), .sign ';']) ++
       [.sign '}', .sign ';', w "return", .text (bytesOf "unknown".toList), .sign ';', .sign '}', .sign ';'])) := by
  have h1 : Toks true "\n}\n".toList [.sign ';', .sign '}', .sign ';'] := toks_last 30 (by decide +kernel)
  have h2 := toks_plain (b := true) (p := "unknown".toList) (by decide +kernel) h1
  have h3 := toks_frag 30 (b := false) (c := "}\n\treturn ".toList) (us := [.sign '}', .sign ';', w "return"]) (by decide +kernel) h2
  have h4 := toks_stringCases nm hp ht h3 syms hs
  have h5 := toks_frag 30 (b := true) (c := ") String() string {\n\tswitch e {\n\t".toList)
    (us := [.sign ')', w "String", .sign '(', .sign ')', w "string", .sign '{', w "switch", w "e", .sign '{']) (by decide +kernel) h4
  have h6 := toks_exported (b := true) ht (apart_append _ (by decide +kernel)) h5
  have h7 := toks_frag 30 (b := false) (c := "\nfunc (e ".toList) (us := [w "func", .sign '(', w "e"]) (by decide +kernel) h6
  exact h7

theorem toks_valueCases (nm : Namer) {print : Char → Bool} (hp : Printing print) {type : Str} (ht : Exported type) {r : Str} {ts : List Tok}
    (h : Toks false r ts) : ∀ (syms : List Str), (∀ s ∈ syms, LegalName s) → Toks false (valueCases nm print type syms ++ r)
      (syms.flatMap (fun s => [w "case", .text (bytesOf s), .sign ':', w "return", .word (symbolGoName nm type s), .sign ',', w "nil", .sign ';']) ++ ts)
  | [], _ => h
  | s :: ss, hs => by
    have h0 := toks_valueCases nm hp ht h ss (fun x hx => hs x (by simp [hx]))
    have h1 := toks_frag 30 (b := true) (c := ", nil\n".toList) (us := [.sign ',', w "nil", .sign ';']) (by decide +kernel) h0
    have h2 := toks_exported (b := true) (symbol_word nm ht (hs s (by simp))) (apart_append _ (by decide +kernel)) h1
    have h3 := toks_frag 30 (b := true) (c := ":\n\t\treturn ".toList) (us := [.sign ':', w "return"]) (by decide +kernel) h2
    have h4 := toks_quoted (b := false) hp.newline (utf8 s) h3
    have h5 := toks_frag 30 (b := false) (c := "case ".toList) (us := [w "case"]) (by decide +kernel) h4
    have e : valueCases nm print type (s :: ss) ++ r = "case ".toList ++ (quoted print (utf8 s) ++ (":\n\t\treturn ".toList ++
        (symbolGoName nm type s ++ (", nil\n".toList ++ (valueCases nm print type ss ++ r))))) := by
      rw [valueCases]
      generalize "case ".toList = a
      generalize ":\n\t\treturn ".toList = b
      generalize ", nil\n".toList = c
      simp only [List.append_assoc]
    rw [e, List.flatMap_cons]
    rw [utf8_bytesOf] at h5
    rw [utf8_bytesOf]
    exact h5

/-- What is returned for a string that is no symbol. -/
def elseToks (nm : Namer) (type dflt : Str) : List Tok :=
  if dflt = [] then [w "return", .sign '-', w "1", .sign ',', w "fmt", .sign '.', w "Errorf", .sign '(',
    .text (bytesOf ("invalid value for ".toList ++ type ++ ": '%s'".toList)), .sign ',', w "raw", .sign ')', .sign ';']
  else [w "return", .word (symbolGoName nm type dflt), .sign ',', w "nil", .sign ';']

theorem invalid_plain : (∀ c ∈ "invalid value for ".toList, PlainStr c) ∧ ∀ c ∈ ": '%s'".toList, PlainStr c := by decide +kernel

theorem toks_valueElse (nm : Namer) {type dflt : Str} (ht : Exported type) (hd : dflt = [] ∨ LegalName dflt) {r : Str} {ts : List Tok}
    (h : Toks false r ts) : Toks false (valueElse nm type dflt ++ r) (elseToks nm type dflt ++ ts) := by
  unfold valueElse elseToks
  by_cases he : dflt = []
  · rw [if_pos he, if_pos he]
    obtain ⟨p1, p2⟩ := invalid_plain
    have h1 := toks_frag 30 (b := true) (c := ", raw)\n".toList) (us := [.sign ',', w "raw", .sign ')', .sign ';']) (by decide +kernel) h
    have h2 := toks_plain (b := false) (p := "invalid value for ".toList ++ type ++ ": '%s'".toList) (by
      intro c hc
      rcases List.mem_append.1 hc with hc | hc
      · rcases List.mem_append.1 hc with hc | hc
        · exact p1 c hc
        · exact name_plain (.inl (exported_chars ht c hc))
      · exact p2 c hc) h1
    have h3 := toks_frag 30 (b := false) (c := "\n\treturn -1, fmt.Errorf(".toList)
      (us := [w "return", .sign '-', w "1", .sign ',', w "fmt", .sign '.', w "Errorf", .sign '(']) (by decide +kernel) h2
    have e : ∀ (a b c q : Str), (a ++ ('"' :: (b ++ '"' :: c))) ++ q = a ++ ('"' :: (b ++ '"' :: (c ++ q))) := by
      intros; simp
    rw [e]
    exact h3
  · rw [if_neg he, if_neg he]
    have hx := symbol_word nm ht (hd.resolve_left he)
    have h1 := toks_frag 30 (b := true) (c := ", nil\n".toList) (us := [.sign ',', w "nil", .sign ';']) (by decide +kernel) h
    have h2 := toks_exported (b := true) hx (apart_append _ (by decide +kernel)) h1
    have h3 := toks_frag 30 (b := false) (c := " \n\treturn ".toList) (us := [w "return"]) (by decide +kernel) h2
    rw [List.append_assoc, List.append_assoc]
    exact h3

theorem toks_value (nm : Namer) {print : Char → Bool} (hp : Printing print) {type dflt : Str} (ht : Exported type) (syms : List Str)
    (hs : ∀ s ∈ syms, LegalName s) (hd : dflt = [] ∨ LegalName dflt) : Toks false (valueText nm print type dflt syms)
      ([w "func", .word ("New".toList ++ type ++ "Value".toList), .sign '(', w "raw", w "string", .sign ')', .sign '(', w "r", .word type, .sign ',',
        w "err", w "error", .sign ')', .sign '{', w "switch", w "raw", .sign '{'] ++
       (syms.flatMap (fun s => [w "case", .text (bytesOf s), .sign ':', w "return", .word (symbolGoName nm type s), .sign ',', w "nil", .sign ';']) ++
       ([.sign '}', .sign ';'] ++ (elseToks nm type dflt ++ [.sign '}', .sign ';'])))) := by
  have h2 := toks_valueElse nm ht hd toks_end
  have h3 := toks_frag 30 (b := false) (c := "}\n\n".toList) (us := [.sign '}', .sign ';']) (by decide +kernel) h2
  have h4 := toks_valueCases nm hp ht h3 syms hs
  have h5 := toks_frag 30 (b := true) (c := ", err error) {\n\tswitch raw {\n".toList)
    (us := [.sign ',', w "err", w "error", .sign ')', .sign '{', w "switch", w "raw", .sign '{']) (by decide +kernel) h4
  have h6 := toks_exported (b := true) ht (apart_append _ (by decide +kernel)) h5
  have h7 := toks_frag 30 (b := true) (c := "(raw string) (r ".toList)
    (us := [.sign '(', w "raw", w "string", .sign ')', .sign '(', w "r"]) (by decide +kernel) h6
  have hx : Exported ("New".toList ++ type ++ "Value".toList) :=
    exported_append (exported_before (by decide +kernel) ht) (by decide +kernel)
  have h8 := toks_exported (b := false) hx (apart_append _ (by decide +kernel)) h7
  have h9 := toks_frag 30 (b := false) (c := "\nfunc ".toList) (us := [w "func"]) (by decide +kernel) h8
  exact h9

/-! Unions. -/

/-- The constants of a union: the positions of the members that have one. -/
def memberConsts (type : Str) : Nat → List (Option Str) → List (Str × Nat)
  | _, [] => []
  | i, none :: ms => memberConsts type (i + 1) ms
  | i, some m :: ms => (type ++ m, i) :: memberConsts type (i + 1) ms

theorem toks_members {type : Str} (ht : Exported type) {r : Str} {ts : List Tok} (h : Toks false r ts) :
    ∀ (ms : List (Option Str)) (i : Nat), (∀ m, some m ∈ ms → Exported m) → Toks false (memberTexts type i ms ++ r)
      ((memberConsts type i ms).flatMap (fun c => [.word c.1, .word type, .sign '=', number c.2, .sign ';']) ++ ts)
  | [], i, _ => h
  | none :: ms, i, hs => by
    have h0 := toks_members ht h ms (i + 1) (fun x hx => hs x (by simp [hx]))
    have h1 := toks_frag 30 (b := false) (c := "\n".toList) (us := []) (by decide +kernel) h0
    rw [memberTexts, memberConsts, List.append_assoc]
    exact h1
  | some m :: ms, i, hs => by
    have h0 := toks_members ht h ms (i + 1) (fun x hx => hs x (by simp [hx]))
    have h1 := toks_frag 30 (b := true) (c := "\n        \n".toList) (us := [.sign ';']) (by decide +kernel) h0
    have h2 := toks_number (b := false) i (apart_append _ (by decide +kernel)) h1
    have h3 := toks_frag 30 (b := true) (c := " = ".toList) (us := [.sign '=']) (by decide +kernel) h2
    have h4 := toks_exported (b := true) ht (apart_append _ (by decide +kernel)) h3
    have h5 := toks_frag 30 (b := true) (c := " ".toList) (us := []) (by decide +kernel) h4
    have h6 := toks_exported (b := false) (exported_before ht (hs m (by simp))) (apart_space _) h5
    have e : memberTexts type i (some m :: ms) ++ r = (type ++ m) ++ (" ".toList ++ (type ++ (" = ".toList ++ (Nat.toDigits 10 i ++
        ("\n        \n".toList ++ (memberTexts type (i + 1) ms ++ r)))))) := by
      rw [memberTexts]
      generalize "\n        \n".toList = a
      generalize " ".toList = b
      generalize " = ".toList = c
      simp only [List.append_assoc]
    rw [e, memberConsts, List.flatMap_cons]
    exact h6

theorem toks_unionConsts {name : Str} (hname : Exported name) (ms : List (Option Str)) (hs : ∀ m, some m ∈ ms → Exported m) :
    Toks false ("\ntype ".toList ++ (unionEnumType name ++ (" int\nconst (\n".toList ++ (memberTexts (unionEnumType name) 0 ms ++
      ")\n".toList)))) (enumToks (unionEnumType name) "int".toList (memberConsts (unionEnumType name) 0 ms)) := by
  have ht : Exported (unionEnumType name) := exported_append hname (by decide +kernel)
  have h1 : Toks false ")\n".toList [.sign ')', .sign ';'] := toks_last 30 (by decide +kernel)
  have h2 := toks_members ht h1 ms 0 hs
  have h3 := toks_frag 30 (b := true) (c := " int\nconst (\n".toList) (us := [w "int", .sign ';', w "const", .sign '(']) (by decide +kernel) h2
  have h4 := toks_exported (b := false) ht (apart_append _ (by decide +kernel)) h3
  exact toks_frag 30 (b := false) (c := "\ntype ".toList) (us := [w "type"]) (by decide +kernel) h4

theorem namedTys_mem {n : NS} : ∀ {ts : List PTy}, NamedTys n ts → ∀ t ∈ ts, NamedTy n t
  | t :: ts, h, u, hu => by
    simp only [NamedTys] at h
    rcases List.mem_cons.1 hu with rfl | hu
    · exact h.1
    · exact namedTys_mem h.2 u hu

theorem toks_unionMembers (nm : Namer) (n : NS) {r : Str} {ts : List Tok} (h : Toks false r ts) : ∀ (us : List PTy),
    (∀ t ∈ us, NamedTy n t) →
    Toks false (us.flatMap (fun t => t.goName nm n ++ (" ".toList ++ (t.goType nm n ++ "\n".toList))) ++ r)
      ((us.map fun t => Member.mk (t.goName nm n) (goTypeOf nm n t) none).flatMap Member.toks ++ ts)
  | [], _ => h
  | t :: us, hn => by
    have ht := hn t (by simp)
    have h0 := toks_unionMembers nm n h us (fun u hu => hn u (by simp [hu]))
    have h1 := toks_frag 30 (b := true) (c := "\n".toList) (us := [.sign ';']) (by decide +kernel) h0
    have h2 := toks_type nm n t true _ _ ht (apart_append _ (by decide +kernel)) h1
    have h3 := toks_frag 30 (b := true) (c := " ".toList) (us := []) (by decide +kernel) h2
    have h4 := toks_exported (b := false) (goName_exported nm n t ht) (apart_space _) h3
    rw [List.flatMap_cons, List.map_cons, List.flatMap_cons]
    generalize us.flatMap (fun t => t.goName nm n ++ (" ".toList ++ (t.goType nm n ++ "\n".toList))) = rest at *
    have e : (t.goName nm n ++ (" ".toList ++ (t.goType nm n ++ "\n".toList)) ++ rest) ++ r =
        t.goName nm n ++ (" ".toList ++ (t.goType nm n ++ ("\n".toList ++ (rest ++ r)))) := by
      generalize "\n".toList = a
      generalize " ".toList = b
      simp only [List.append_assoc]
    have e2 : ∀ (us' : List Tok), (Member.toks ⟨t.goName nm n, goTypeOf nm n t, none⟩ ++ us') ++ ts =
        Tok.word (t.goName nm n) :: ([] ++ ((goTypeOf nm n t).toks ++ ([.sign ';'] ++ (us' ++ ts)))) := by
      intro us'
      simp only [Member.toks, Option.map_none, Option.toList_none, List.append_assoc, List.cons_append, List.nil_append]
    rw [e, e2]
    exact h4

theorem toks_unionStruct (nm : Namer) (n : NS) {name : Str} (hname : Exported name) (ts : List PTy) (hn : ∀ t ∈ ts, NamedTy n t) :
    Toks false (unionStructText nm n name ts)
      (structToks name ((ts.map fun t => Member.mk (t.goName nm n) (goTypeOf nm n t) none) ++
        [⟨"UnionType".toList, .named (unionEnumType name), none⟩])) := by
  have ht : Exported (unionEnumType name) := exported_append hname (by decide +kernel)
  have h1 : Toks true "\n}\n".toList [.sign ';', .sign '}', .sign ';'] := toks_last 30 (by decide +kernel)
  have h2 := toks_exported (b := true) ht (by have := apart_append (c := "\n}\n".toList) [] (by decide +kernel); rwa [List.append_nil] at this) h1
  have h3 := toks_frag 30 (b := false) (c := "UnionType ".toList) (us := [w "UnionType"]) (by decide +kernel) h2
  have h4 := toks_unionMembers nm n h3 ts hn
  have h5 := toks_frag 30 (b := true) (c := " struct {\n".toList) (us := [w "struct", .sign '{']) (by decide +kernel) h4
  have h6 := toks_exported (b := false) hname (apart_append _ (by decide +kernel)) h5
  have h7 := toks_frag 30 (b := false) (c := "\ntype ".toList) (us := [w "type"]) (by decide +kernel) h6
  unfold structToks
  rw [List.flatMap_append]
  generalize (ts.map fun t => Member.mk (t.goName nm n) (goTypeOf nm n t) none).flatMap Member.toks = ms at *
  rw [List.append_assoc]
  exact h7

/-- The constants are those of the members, but for the first null, with their positions. -/
theorem memberConsts_names (nm : Namer) (n : NS) (type : Str) : ∀ (ts : List PTy) (i : Nat),
    memberConsts type i (ts.map fun t => some (t.goName nm n)) = (ts.map fun t => type ++ t.goName nm n).zipIdx i
  | [], i => rfl
  | t :: ts, i => by
    rw [List.map_cons, memberConsts, memberConsts_names nm n type ts, List.map_cons, List.zipIdx_cons]

/-! Others -/

theorem toks_fixed {type : Str} (ht : Exported type) (size : Nat) : Toks false (fixedText type size)
    [w "type", .word type, .sign '[', number size, .sign ']', w "byte", .sign ';'] := by
  have h1 : Toks true "]byte\n".toList [.sign ']', w "byte", .sign ';'] := toks_last 30 (by decide +kernel)
  have ha : Apart "]byte\n".toList := by have := apart_append (c := "]byte\n".toList) [] (by decide +kernel); rwa [List.append_nil] at this
  have h2 := toks_number (b := false) size ha h1
  have h3 := toks_frag 30 (b := true) (c := " [".toList) (us := [.sign '[']) (by decide +kernel) h2
  have h4 := toks_exported (b := false) ht (apart_append _ (by decide +kernel)) h3
  exact toks_frag 30 (b := false) (c := "\ntype ".toList) (us := [w "type"]) (by decide +kernel) h4

theorem toks_marshal (nm : Namer) {print : Char → Bool} (hp : Printing print) {f : PField} (hn : LegalName f.name) (hl : LetterFirst f.name) :
    Toks false (marshalText nm print f) [w "output", .sign '[', .text (bytesOf f.name), .sign ']', .sign ',', w "err", .sign '=', w "json", .sign '.',
      w "Marshal", .sign '(', w "r", .sign '.', .word (fieldGoName nm f.name), .sign ')', .sign ';'] := by
  have h1 : Toks true ")\n".toList [.sign ')', .sign ';'] := toks_last 30 (by decide +kernel)
  have ha : Apart ")\n".toList := by have := apart_append (c := ")\n".toList) [] (by decide +kernel); rwa [List.append_nil] at this
  have h2 := toks_exported (b := false) (field_exported nm hn hl) ha h1
  have h3 := toks_frag 30 (b := true) (c := "], err = json.Marshal(r.".toList)
    (us := [.sign ']', .sign ',', w "err", .sign '=', w "json", .sign '.', w "Marshal", .sign '(', w "r", .sign '.']) (by decide +kernel) h2
  have h4 := toks_quoted (b := false) hp.newline (utf8 f.name) h3
  rw [utf8_bytesOf] at h4
  have h5 := toks_frag 30 (b := false) (c := "output[".toList) (us := [w "output", .sign '[']) (by decide +kernel) h4
  unfold marshalText
  rw [utf8_bytesOf]
  exact h5

theorem toks_key {key : Str} (hk : ∀ c ∈ key, PlainStr c) : Toks false (unionKeyText key) [w "fields", .sign '[', .text (bytesOf key), .sign ']', .sign ';'] := by
  have h1 : Toks true "]\n".toList [.sign ']', .sign ';'] := toks_last 30 (by decide +kernel)
  have h2 := toks_plain (b := false) hk h1
  exact toks_frag 30 (b := false) (c := "fields[".toList) (us := [w "fields", .sign '[']) (by decide +kernel) h2

end Verif
