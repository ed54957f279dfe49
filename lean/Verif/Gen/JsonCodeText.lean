import Verif.Gen.JsonCode
import Verif.Gen.DefaultTextProof
import Verif.Parser.Resolve
/-
The texts of `MarshalJSON` and `UnmarshalJSON` of generated types have the tokens of the programs, and the compiler has no objection to the
variables of the programs.
-/
namespace Verif
open Spec Spec.Go Spec.GoJ
set_option linter.unusedSimpArgs false
set_option maxRecDepth 4000

/-! ### Variables -/

theorem inScope_puts (nm : Namer) : ∀ (fs : List PField), inScope [.output, .err] ((putSts nm fs ++ [MSt.retOutput]).map MSt.vars) = true
  | [] => rfl
  | f :: fs => by
    have h := inScope_puts nm fs
    simp only [putSts, List.cons_append, List.map_cons, inScope, MSt.vars]
    simpa using h

theorem recordMarshal_accepted (nm : Namer) (fs : List PField) : MAccepted (recordMarshal nm fs) := by
  refine ⟨?_, .retOutput, ?_, rfl⟩
  · cases fs with
    | nil => rfl
    | cons f fs =>
      have h := inScope_puts nm fs
      simp only [recordMarshal, List.isEmpty_cons, putSts, List.cons_append, List.nil_append, List.map_cons, inScope, MSt.vars, if_false, Bool.false_eq_true]
      simpa using h
  · unfold recordMarshal
    rw [List.getLast?_append, List.getLast?_cons, List.getLast?_append]
    simp

theorem inScope_reads (nm : Namer) (n : NS) (k : Nat) : ∀ {fs : List PField} {l : List USt}, fieldReads nm n k fs = .ok l →
    inScope [.val, .fields] ((l ++ [USt.retNil]).map USt.vars) = true
  | [], l, h => by
    cases h
    decide
  | f :: fs, l, h => by
    rw [fieldReads] at h
    obtain ⟨e, -, h⟩ := bind_ok h
    obtain ⟨r, hr, h⟩ := bind_ok h
    cases h
    have := inScope_reads nm n k hr
    simp only [List.cons_append, List.map_cons, inScope, USt.vars]
    simpa using this

theorem recordUnmarshal_accepted (nm : Namer) (n : NS) (k : Nat) {fs : List PField} {body : List USt} (h : recordUnmarshal nm n k fs = .ok body) :
    UAccepted body := by
  unfold recordUnmarshal at h
  obtain ⟨l, hl, h⟩ := bind_ok h
  cases h
  refine ⟨?_, .retNil, ?_, rfl⟩
  · have h1 := inScope_reads nm n k hl
    cases fs with
    | nil => cases hl; decide
    | cons f fs =>
      rw [fieldReads] at hl
      obtain ⟨e, -, hl⟩ := bind_ok hl
      obtain ⟨r, hr, hl⟩ := bind_ok hl
      cases hl
      have := inScope_reads nm n k hr
      simp only [List.isEmpty_cons, List.cons_append, List.nil_append, List.map_cons, inScope, USt.vars, if_false, Bool.false_eq_true]
      simpa using this
  · rw [List.getLast?_cons, List.getLast?_cons, List.getLast?_append, List.getLast?_append]
    simp

theorem unionMarshal_accepted (nm : Namer) (n : NS) (name type : Str) (ts : List PTy) : MAccepted (unionMarshal nm n name type ts) := by
  refine ⟨?_, .fail (bytesOf (unionMessage type)), ?_, rfl⟩
  · unfold unionMarshal
    cases (nullAt 0 ts).isSome <;> simp [inScope, MSt.vars]
  · unfold unionMarshal
    rw [List.getLast?_append]
    simp

theorem inScope_members (nm : Namer) (n : NS) (null : Option Nat) (msg : List Byte) : ∀ (ts : List PTy) (i : Nat),
    inScope [.fields] ((memberReads nm n null i ts ++ [USt.fail msg]).map USt.vars) = true
  | [], _ => rfl
  | t :: ts, i => by
    have h := inScope_members nm n null msg ts (i + 1)
    rw [memberReads]
    by_cases e : null = some i
    · rw [if_pos e]; exact h
    · rw [if_neg e]
      simp only [List.cons_append, List.nil_append, List.map_cons, inScope, USt.vars]
      simpa using h

theorem unionUnmarshal_accepted (nm : Namer) (n : NS) (type : Str) (ts : List PTy) : UAccepted (unionUnmarshal nm n type ts) := by
  refine ⟨?_, .fail (bytesOf (unionMessage type)), ?_, rfl⟩
  · have h := inScope_members nm n (nullAt 0 ts) (bytesOf (unionMessage type)) ts 0
    simp only [unionUnmarshal, List.cons_append, List.nil_append, List.map_cons, inScope, USt.vars]
    simpa using h
  · unfold unionUnmarshal
    rw [List.getLast?_append, List.getLast?_append]
    simp

theorem enumUnmarshal_accepted (type : Str) : UAccepted (enumUnmarshal type) := ⟨rfl, .retErr, rfl, rfl⟩
theorem enumMarshal_accepted : MAccepted enumMarshal := ⟨rfl, .retString, rfl, rfl⟩
theorem fixedUnmarshal_accepted : UAccepted fixedUnmarshal := ⟨rfl, .retNil, rfl, rfl⟩
theorem fixedMarshal_accepted : MAccepted fixedMarshal := ⟨rfl, .retBytes true, rfl, rfl⟩
theorem bytesUnmarshal_accepted : UAccepted bytesUnmarshal := ⟨rfl, .retNil, rfl, rfl⟩
theorem bytesMarshal_accepted : MAccepted bytesMarshal := ⟨rfl, .retBytes false, rfl, rfl⟩

/-! ### Texts -/

theorem writes_marshalHead {x type : Str} {us : List Tok} (hx : wordB x = true) (hc : x.all (fun c => !forbidden c) = true) (ht : Phrase type us) :
    Writes false (marshalHead x type) (w "func" :: .sign '(' :: .word x :: (us ++ [.sign ')', w "MarshalJSON", .sign '(', .sign ')', .sign '(', .sign '[', .sign ']',
      w "byte", .sign ',', w "error", .sign ')', .sign '{'])) false :=
  writes_eq (lf (us := [w "func", .sign '(']) (by decide +kernel) (writes_phrase (phrase_const hx hc) (by decide +kernel)
    (lt (us := []) (by decide +kernel) (writes_phrase ht (by decide +kernel)
    (writes_last (us := [.sign ')', w "MarshalJSON", .sign '(', .sign ')', .sign '(', .sign '[', .sign ']',
      w "byte", .sign ',', w "error", .sign ')', .sign '{']) (by decide +kernel)))))) (by simp)

theorem writes_unmarshalHead {x type : Str} {us : List Tok} (hx : wordB x = true) (hc : x.all (fun c => !forbidden c) = true) (ht : Phrase type us) :
    Writes false (unmarshalHead x type) (w "func" :: .sign '(' :: .word x :: (us ++ [.sign ')', w "UnmarshalJSON", .sign '(', w "data", .sign '[', .sign ']', w "byte",
      .sign ')', .sign '(', w "error", .sign ')', .sign '{'])) false :=
  writes_eq (lf (us := [w "func", .sign '(']) (by decide +kernel) (writes_phrase (phrase_const hx hc) (by decide +kernel)
    (lt (us := []) (by decide +kernel) (writes_phrase ht (by decide +kernel)
    (writes_last (us := [.sign ')', w "UnmarshalJSON", .sign '(', w "data", .sign '[', .sign ']', w "byte",
      .sign ')', .sign '(', w "error", .sign ')', .sign '{']) (by decide +kernel)))))) (by simp)

theorem writes_puts (nm : Namer) {print : Char → Bool} (hp : Printing print) : ∀ (fs : List PField), (∀ f ∈ fs, LegalName f.name ∧ LetterFirst f.name) →
    Writes false (putTexts nm print fs) ((putSts nm fs).flatMap MSt.toks) false
  | [], _ => writes_nil false
  | f :: fs, h => by
    have h0 := writes_puts nm hp fs fun g hg => h g (List.mem_cons_of_mem _ hg)
    obtain ⟨hl, hf⟩ := h f (List.mem_cons_self ..)
    refine writes_eq (lf (us := [w "output", .sign '[']) (by decide +kernel) (writes_cat (writes_quoted hp _)
      (lf (us := [.sign ']', .sign ',', w "err", .sign '=', w "json", .sign '.', w "Marshal", .sign '(', w "r", .sign '.']) (by decide +kernel)
      (writes_phrase (phrase_exported (field_exported nm hl hf)) (by decide +kernel)
      (lf (us := [.sign ')', .sign ';', w "if", w "err", .sign '!', .sign '=', w "nil", .sign '{']) (by decide +kernel)
      (lf (us := [w "return", w "nil", .sign ',', w "err", .sign ';', .sign '}', .sign ';']) (by decide +kernel) (writes_end h0))))))) ?_
    simp [putSts, MSt.toks]

/-- `MarshalJSON` of a record. -/
theorem recordMarshal_tokens (nm : Namer) {print : Char → Bool} (hp : Printing print) {name : Str} (hn : Exported name) {fs : List PField}
    (h : ∀ f ∈ fs, LegalName f.name ∧ LetterFirst f.name) :
    tokens (recordMarshalText nm print name fs) = some (marshalToks "r".toList (.named name) (recordMarshal nm fs)) := by
  have h0 : Writes false (if fs.isEmpty then [] else "var err error\n\t".toList) ((if fs.isEmpty then [] else [MSt.varErr]).flatMap MSt.toks) false := by
    cases fs with
    | nil => exact writes_nil false
    | cons f fs => exact writes_piece (b := false) (b' := false) (c := "var err error\n\t".toList) (us := MSt.varErr.toks ++ []) (by decide +kernel)
  refine writes_tokens (writes_eq (writes_cat (writes_marshalHead (by decide +kernel) (by decide +kernel) (phrase_exported hn)) (writes_cat h0
    (lf (us := MSt.makeOutput.toks) (by decide +kernel) (writes_cat (writes_puts nm hp fs h)
    (writes_last (us := MSt.retOutput.toks ++ [.sign '}', .sign ';']) (by decide +kernel)))))) ?_)
  simp [marshalToks, recordMarshal, GoTy.toks]

theorem writes_finds {print : Char → Bool} (hp : Printing print) : ∀ (ks : List Str), Writes false (findTexts print ks) ((ks.map utf8).flatMap findToks) false
  | [] => writes_nil false
  | k :: ks => by
    refine writes_eq (writes_cat (lf (us := [w "if", w "v", .sign ',', w "ok", .sign ':', .sign '=', w "fields", .sign '[']) (by decide +kernel) (writes_cat (writes_quoted hp _)
      (writes_last (us := [.sign ']', .sign ';', w "ok", .sign '{', w "return", w "v", .sign ';', .sign '}', .sign ';']) (by decide +kernel))))
      (writes_end (writes_finds hp ks))) ?_
    simp [findToks]

theorem missing_plain {f : PField} (h : LegalName f.name) :
    (∀ c ∈ missingMessage f, PlainStr c) ∧ (missingMessage f).all (fun c => !forbidden c) = true := by
  have hc := legal_chars h
  have h0 : (∀ c ∈ "no value specified for ".toList, PlainStr c) ∧ "no value specified for ".toList.all (fun c => !forbidden c) = true := by
    unfold PlainStr; decide +kernel
  constructor
  · intro c hm
    rcases List.mem_append.1 hm with hm | hm
    · exact h0.1 c hm
    · exact name_plain (.inl (hc c hm))
  · unfold missingMessage
    rw [List.all_append, h0.2, Bool.true_and, List.all_eq_true]
    intro c hm
    rw [forbidden_name (.inl (hc c hm))]
    rfl

/-- The default statements of the method can be read. -/
def Spec.GoJ.Else.Readable : Else → Prop
  | .sets l => Verif.Readable l
  | .fail _ => True

def Spec.GoJ.USt.Readable : USt → Prop
  | .field _ e => e.Readable
  | _ => True

def UReadable (body : List USt) : Prop := ∀ s ∈ body, s.Readable

/-- The text is that of the statements, or there is no text and there are no statements for the same reason. -/
def Printed {α : Type} (readable : α → Prop) (toks : α → List Tok) (s : Made Str) (L : Made α) : Prop := match s, L with
  | .ok s, .ok L => readable L → Writes false s (toks L) false
  | .error e, .error e' => e = e'
  | _, _ => False

theorem else_prints (nm : Namer) {n : NS} {print : Char → Bool} (hp : Printing print) (hn : LegalFields n) (k : Nat) {f : PField} (hl : LegalName f.name)
    (hf : LetterFirst f.name) (ht : NamedTy n f.ty) : Printed Else.Readable Else.toks (elseText nm n print k f) (elseSts nm n k f) := by
  have h := dflt_prints nm hp hn k hl hf ht "\n\t\t" (us := []) (fun _ b hb => by
    obtain rfl : b = "\t\t".toList := by injection hb with _ hb; exact hb.symm
    exact writes_last (us := []) (by decide +kernel)) ⟨"\t\t".toList, rfl⟩
  unfold elseText elseSts
  cases hd : f.dflt with
  | none =>
    intro _
    obtain ⟨h1, h2⟩ := missing_plain hl
    exact writes_eq (lf (us := [w "return", w "fmt", .sign '.', w "Errorf", .sign '(']) (by decide +kernel) (writes_cat (writes_quotes h1 h2)
      (writes_last (us := [.sign ')', .sign ';']) (by decide +kernel)))) (by simp [Else.toks, errorfToks])
  | some j =>
    have e0 : dfltSts nm n k f = defaultSts nm n k j f.ty := by unfold dfltSts; rw [hd]
    rw [e0] at h
    dsimp only
    cases e1 : defaultForField nm n print k f "\n\t\t" with
    | error e =>
      cases e2 : defaultSts nm n k j f.ty with
      | error e' => rw [e1, e2] at h; exact h
      | ok L => rw [e1, e2] at h; exact h.elim
    | ok s =>
      cases e2 : defaultSts nm n k j f.ty with
      | error e' => rw [e1, e2] at h; exact h.elim
      | ok L =>
        rw [e1, e2] at h
        intro hR
        obtain ⟨-, hR'⟩ := readable_append (readable_under hR)
        have h := h hR'
        have hc := writes_ctorLine nm n (phrase_r (field_exported nm hl hf)) ht
        show Writes false _ (GoD.stsToks _) false
        rw [← atToks_r, atToks_under, atToks_append]
        refine writes_cat ?_ (writes_eq (writes_end h) (by split <;> simp))
        by_cases h2 : f.ty.ctorText nm n = []
        · rw [if_pos h2]
          unfold ctorLine at hc
          rw [if_pos h2] at hc
          exact hc
        · rw [if_neg h2]
          exact writes_eq (writes_cat hc (writes_last (us := []) (by decide +kernel))) (List.append_nil _)

theorem reads_prints (nm : Namer) {n : NS} {print : Char → Bool} (hp : Printing print) (hn : LegalFields n) (k : Nat) : ∀ {fs : List PField},
    (∀ f ∈ fs, LegalName f.name ∧ LetterFirst f.name ∧ NamedTy n f.ty) →
    Printed UReadable (fun l => l.flatMap USt.toks) (fieldReadTexts nm n print k fs) (fieldReads nm n k fs)
  | [], _ => fun _ => writes_nil false
  | f :: fs, hf => by
    obtain ⟨a, b, c⟩ := hf f (List.mem_cons_self ..)
    have h1 := else_prints nm hp hn k a b c
    have h2 := reads_prints nm hp hn k (fun g hg => hf g (List.mem_cons_of_mem _ hg))
    rw [fieldReadTexts, fieldReads]
    cases e1 : elseText nm n print k f with
    | error e =>
      cases e2 : elseSts nm n k f with
      | error e' => rw [e1, e2] at h1; exact h1
      | ok L => rw [e1, e2] at h1; exact h1.elim
    | ok s =>
      cases e2 : elseSts nm n k f with
      | error e' => rw [e1, e2] at h1; exact h1.elim
      | ok L =>
        rw [e1, e2] at h1
        cases e3 : fieldReadTexts nm n print k fs with
        | error e =>
          cases e4 : fieldReads nm n k fs with
          | error e' => rw [e3, e4] at h2; exact h2
          | ok M => rw [e3, e4] at h2; exact h2.elim
        | ok r =>
          cases e4 : fieldReads nm n k fs with
          | error e' => rw [e3, e4] at h2; exact h2.elim
          | ok M =>
            rw [e3, e4] at h2
            intro hR
            have r1 : L.Readable := hR (.field (fieldGoName nm f.name) L) (by simp)
            have r2 : UReadable M := fun s hs => hR s (by simp [hs])
            have hx := field_exported nm a b
            refine writes_eq (lf (us := [w "val", .sign '=', w "func", .sign '(', .sign ')', w "json", .sign '.', w "RawMessage", .sign '{']) (by decide +kernel)
              (writes_cat (writes_finds hp _)
              (lf (us := [w "return", w "nil", .sign ';', .sign '}', .sign '(', .sign ')', .sign ';']) (by decide +kernel)
              (lf (us := [w "if", w "val", .sign '!', .sign '=', w "nil", .sign '{', w "if", w "err", .sign ':', .sign '=', w "json", .sign '.', w "Unmarshal", .sign '(']) (by decide +kernel)
              (lf (us := [.sign '[', .sign ']', w "byte", .sign '(', w "val", .sign ')', .sign ',', .sign '&', w "r", .sign '.']) (by decide +kernel)
              (writes_phrase (phrase_exported hx) (by decide +kernel)
              (lf (us := [.sign ')', .sign ';', w "err", .sign '!', .sign '=', w "nil", .sign '{', w "return", w "err", .sign ';', .sign '}', .sign ';']) (by decide +kernel)
              (lf (us := [.sign '}', w "else", .sign '{']) (by decide +kernel)
              (writes_cat (h1 r1) (lf (us := [.sign '}', .sign ';']) (by decide +kernel) (writes_end (h2 r2)))))))))))) ?_
            simp [USt.toks]

theorem writes_readFields : Writes false readFieldsText (USt.varFields.toks ++ USt.readFields.toks) false :=
  writes_eq (lf (us := USt.varFields.toks) (by decide +kernel)
    (lf (us := [w "if", w "err", .sign ':', .sign '=', w "json", .sign '.', w "Unmarshal", .sign '(', w "data", .sign ',', .sign '&', w "fields", .sign ')', .sign ';']) (by decide +kernel)
    (writes_last (us := [w "err", .sign '!', .sign '=', w "nil", .sign '{', w "return", w "err", .sign ';', .sign '}', .sign ';']) (by decide +kernel)))) rfl

/-- `UnmarshalJSON` of a record. -/
theorem recordUnmarshal_tokens (nm : Namer) {n : NS} {print : Char → Bool} (hp : Printing print) (hn : LegalFields n) (k : Nat) {name : Str} (hname : Exported name)
    {fs : List PField} (hf : ∀ f ∈ fs, LegalName f.name ∧ LetterFirst f.name ∧ NamedTy n f.ty) : match recordUnmarshalText nm n print k name fs, recordUnmarshal nm n k fs with
      | .ok s, .ok L => UReadable L → tokens s = some (unmarshalToks "r".toList (.pointer (.named name)) L)
      | .error e, .error e' => e = e'
      | _, _ => False := by
  have h := reads_prints nm hp hn k hf
  unfold recordUnmarshalText recordUnmarshal
  cases e1 : fieldReadTexts nm n print k fs with
  | error e =>
    cases e2 : fieldReads nm n k fs with
    | error e' => rw [e1, e2] at h; exact h
    | ok L => rw [e1, e2] at h; exact h.elim
  | ok s =>
    cases e2 : fieldReads nm n k fs with
    | error e' => rw [e1, e2] at h; exact h.elim
    | ok L =>
      rw [e1, e2] at h
      intro hR
      have h := h fun s hs => hR s (by simp [hs])
      have h0 : Writes false (if fs.isEmpty then [] else "var val json.RawMessage\n\t".toList) ((if fs.isEmpty then [] else [USt.varVal]).flatMap USt.toks) false := by
        cases fs with
        | nil => exact writes_nil false
        | cons f fs => exact writes_piece (b := false) (b' := false) (c := "var val json.RawMessage\n\t".toList) (us := USt.varVal.toks ++ []) (by decide +kernel)
      refine writes_tokens (writes_eq (writes_cat (writes_unmarshalHead (by decide +kernel) (by decide +kernel) (phrase_pointer hname))
        (writes_cat writes_readFields
        (writes_cat h0 (writes_cat h
        (writes_last (us := USt.retNil.toks ++ [.sign '}', .sign ';']) (by decide +kernel)))))) ?_)
      simp [unmarshalToks, USt.toks, readToks, rawMap, GoTy.toks]

/-! ### Unions -/

theorem key_plain {n : NS} {t : PTy} (h : NamedTy n t) : (∀ c ∈ t.key n, PlainStr c) ∧ (t.key n).all (fun c => !forbidden c) = true := by
  have hk : ∀ s : Str, (∀ c ∈ s, PlainStr c) ∧ s.all (fun c => !forbidden c) = true → t.key n = s →
      (∀ c ∈ t.key n, PlainStr c) ∧ (t.key n).all (fun c => !forbidden c) = true := fun s hs e => e ▸ hs
  cases t with
  | prim p l =>
    cases p with
    | null => exact hk "null".toList (by unfold PlainStr; decide +kernel) rfl
    | bool => exact hk "boolean".toList (by unfold PlainStr; decide +kernel) rfl
    | int => exact hk "int".toList (by unfold PlainStr; decide +kernel) rfl
    | long => exact hk "long".toList (by unfold PlainStr; decide +kernel) rfl
    | float => exact hk "float".toList (by unfold PlainStr; decide +kernel) rfl
    | double => exact hk "double".toList (by unfold PlainStr; decide +kernel) rfl
    | bytes => exact hk "bytes".toList (by unfold PlainStr; decide +kernel) rfl
    | string => exact hk "string".toList (by unfold PlainStr; decide +kernel) rfl
  | array t d => exact hk "array".toList (by unfold PlainStr; decide +kernel) rfl
  | map t d => exact hk "map".toList (by unfold PlainStr; decide +kernel) rfl
  | union name ts d => exact hk [] ⟨fun c hc => absurd hc (List.not_mem_nil), rfl⟩ rfl
  | ref q =>
    obtain ⟨d, hq, hd⟩ := h
    have hc := dotted_chars hd
    refine hk d.name.str ⟨fun c hm => name_plain (hc c hm), ?_⟩ ?_
    · rw [List.all_eq_true]
      intro c hm
      rw [forbidden_name (hc c hm)]
      rfl
    · unfold PTy.key
      show ((n.env.find q).map fun d => d.name.str).getD [] = _
      rw [env_find, hq]
      rfl

theorem writes_jsonCases (nm : Namer) (n : NS) {type : Str} (htype : Exported type) (null : Option Nat) : ∀ (ts : List PTy) (i : Nat), (∀ t ∈ ts, NamedTy n t) →
    Writes false (jsonCaseTexts nm n type null i ts) ((jsonCases nm n type null i ts).flatMap mcaseToks) false
  | [], _, _ => writes_nil false
  | t :: ts, i, h => by
    have h0 := writes_jsonCases nm n htype null ts (i + 1) fun g hg => h g (List.mem_cons_of_mem _ hg)
    have hf := h t (List.mem_cons_self ..)
    have hx := goName_exported nm n t hf
    obtain ⟨k1, k2⟩ := key_plain hf
    rw [jsonCaseTexts, jsonCases, List.flatMap_append]
    refine writes_cat ?_ (writes_end h0)
    by_cases e : null = some i
    · rw [if_pos e, if_pos e]; exact writes_nil false
    · rw [if_neg e, if_neg e]
      refine writes_eq (lf (us := [w "case"]) (by decide +kernel) (writes_phrase (phrase_exported (exported_before htype hx)) (by decide +kernel)
        (lf (us := [.sign ':', w "return", w "json", .sign '.', w "Marshal", .sign '(']) (by decide +kernel)
        (lf (us := [w "map", .sign '[', w "string", .sign ']', w "interface", .sign '{', .sign '}', .sign '{']) (by decide +kernel)
        (writes_cat (writes_quotes k1 k2) (lf (us := [.sign ':', w "r", .sign '.']) (by decide +kernel) (writes_phrase (phrase_exported hx) (by decide +kernel)
        (writes_last (us := [.sign '}', .sign ')', .sign ';']) (by decide +kernel))))))))) ?_
      simp [mcaseToks]

theorem message_clean {type : Str} (h : Clean type) : (unionMessage type).all (fun c => !forbidden c) = true := by
  rw [List.all_eq_true]
  intro c hc
  rw [clean_message h c hc]
  rfl

/-- `MarshalJSON` of a union. -/
theorem unionMarshal_tokens (nm : Namer) (n : NS) {name : Str} {ts : List PTy} {d : List Json} (h : NamedTy n (.union name ts d)) :
    tokens (unionMarshalText nm n ((PTy.union name ts d).goName nm n) ((PTy.union name ts d).goType nm n) ts) =
      some (marshalToks "r".toList (goTypeOf nm n (.union name ts d)) (unionMarshal nm n ((PTy.union name ts d).goName nm n) ((PTy.union name ts d).goType nm n) ts)) := by
  have hT := phrase_type nm n h
  have hx := goName_exported nm n _ h
  have hm := writes_quotes (b := false) (message_plain (plain_unionType nm n h)) (message_clean hT.clean)
  have hc := writes_jsonCases nm n (enumType_exported hx) (nullAt 0 ts) ts 0 (namedTys_mem h.2)
  have h0 : Writes false (if (nullAt 0 ts).isSome then cat ["\n\tif r == nil {\n\t\treturn []byte(".toList, inQuotes "null".toList, "), nil\n\t}\n\t".toList] else [])
      ((if (nullAt 0 ts).isSome then [MSt.ifNil] else []).flatMap MSt.toks) false := by
    cases (nullAt 0 ts).isSome with
    | false => exact writes_nil false
    | true =>
      exact writes_eq (lf (us := [w "if", w "r", .sign '=', .sign '=', w "nil", .sign '{', w "return", .sign '[', .sign ']', w "byte", .sign '(']) (by decide +kernel)
        (writes_cat (writes_quotes (by unfold PlainStr; decide +kernel) (by decide +kernel))
        (writes_last (us := [.sign ')', .sign ',', w "nil", .sign ';', .sign '}', .sign ';']) (by decide +kernel)))) (by simp [MSt.toks])
  refine writes_tokens (writes_eq (writes_cat (writes_marshalHead (by decide +kernel) (by decide +kernel) hT) (writes_cat h0
    (lf (us := [w "switch", w "r", .sign '.', w "UnionType", .sign '{']) (by decide +kernel) (writes_cat hc
    (lf (us := [.sign '}', .sign ';', w "return", w "nil", .sign ',', w "fmt", .sign '.', w "Errorf", .sign '(']) (by decide +kernel) (writes_cat hm
    (writes_last (us := [.sign ')', .sign ';', .sign '}', .sign ';']) (by decide +kernel)))))))) ?_)
  simp [marshalToks, unionMarshal, MSt.toks, errorfToks]

theorem writes_members (nm : Namer) (n : NS) (null : Option Nat) : ∀ (ts : List PTy) (i : Nat), (∀ t ∈ ts, NamedTy n t) →
    Writes false (memberReadTexts nm n null i ts) ((memberReads nm n null i ts).flatMap USt.toks) false
  | [], _, _ => writes_nil false
  | t :: ts, i, h => by
    have h0 := writes_members nm n null ts (i + 1) fun g hg => h g (List.mem_cons_of_mem _ hg)
    have hf := h t (List.mem_cons_self ..)
    have hx := goName_exported nm n t hf
    obtain ⟨k1, k2⟩ := key_plain hf
    rw [memberReadTexts, memberReads, List.flatMap_append]
    refine writes_cat ?_ (writes_end h0)
    by_cases e : null = some i
    · rw [if_pos e, if_pos e]; exact writes_nil false
    · rw [if_neg e, if_neg e]
      refine writes_eq (lf (us := [w "if", w "value", .sign ',', w "ok", .sign ':', .sign '=', w "fields", .sign '[']) (by decide +kernel) (writes_cat (writes_quotes k1 k2)
        (lf (us := [.sign ']', .sign ';', w "ok", .sign '{', w "r", .sign '.', w "UnionType", .sign '=']) (by decide +kernel) (writes_phrase (phrase_number i) (by decide +kernel)
        (lf (us := [.sign ';', w "return", w "json", .sign '.', w "Unmarshal", .sign '(']) (by decide +kernel)
        (lf (us := [.sign '[', .sign ']', w "byte", .sign '(', w "value", .sign ')', .sign ',', .sign '&', w "r", .sign '.']) (by decide +kernel)
        (writes_phrase (phrase_exported hx) (by decide +kernel)
        (writes_last (us := [.sign ')', .sign ';', .sign '}', .sign ';']) (by decide +kernel))))))))) ?_
      simp [USt.toks]

/-- `UnmarshalJSON` of a union. -/
theorem unionUnmarshal_tokens (nm : Namer) (n : NS) {name : Str} {ts : List PTy} {d : List Json} (h : NamedTy n (.union name ts d)) :
    tokens (unionUnmarshalText nm n ((PTy.union name ts d).goType nm n) ts) =
      some (unmarshalToks "r".toList (.pointer (.named ((PTy.union name ts d).goName nm n))) (unionUnmarshal nm n ((PTy.union name ts d).goType nm n) ts)) := by
  have hT := phrase_type nm n h
  have hm := writes_quotes (b := false) (message_plain (plain_unionType nm n h)) (message_clean hT.clean)
  have hc := writes_members nm n (nullAt 0 ts) ts 0 (namedTys_mem h.2)
  have hs : (∀ c ∈ severalMessage, PlainStr c) ∧ severalMessage.all (fun c => !forbidden c) = true := by unfold PlainStr; decide +kernel
  refine writes_tokens (writes_eq (writes_cat (writes_unmarshalHead (by decide +kernel) (by decide +kernel) (phrase_unionRecv nm n h))
    (lf (us := []) (by decide +kernel) (writes_cat writes_readFields
    (lf (us := [w "if", w "len", .sign '(', w "fields", .sign ')', .sign '>', w "1", .sign '{', w "return", w "fmt", .sign '.', w "Errorf", .sign '(']) (by decide +kernel)
    (writes_cat (writes_quotes hs.1 hs.2)
    (lf (us := [.sign ')', .sign ';', .sign '}', .sign ';']) (by decide +kernel) (writes_cat hc
    (lf (us := [w "return", w "fmt", .sign '.', w "Errorf", .sign '(']) (by decide +kernel) (writes_cat hm
    (writes_last (us := [.sign ')', .sign ';', .sign '}', .sign ';']) (by decide +kernel))))))))))) ?_)
  simp [unmarshalToks, unionUnmarshal, USt.toks, readToks, rawMap, errorfToks]

/-! ### Enums, fixed and bytes -/

/-- `MarshalJSON` of an enum. -/
theorem enumMarshal_tokens {name : Str} (h : Exported name) : tokens (enumMarshalText name) = some (marshalToks "b".toList (.named name) enumMarshal) := by
  refine writes_tokens (writes_eq (writes_cat (writes_marshalHead (by decide +kernel) (by decide +kernel) (phrase_exported h))
    (writes_last (us := MSt.retString.toks ++ [.sign '}', .sign ';']) (by decide +kernel))) ?_)
  simp [marshalToks, enumMarshal, GoTy.toks]

/-- `UnmarshalJSON` of an enum. -/
theorem enumUnmarshal_tokens {name : Str} (h : Exported name) :
    tokens (enumUnmarshalText name) = some (unmarshalToks "b".toList (.pointer (.named name)) (enumUnmarshal name)) := by
  have hv : Exported (valueName name) := exported_append (exported_before (by decide +kernel) h) (by decide +kernel)
  refine writes_tokens (writes_eq (writes_cat (writes_unmarshalHead (by decide +kernel) (by decide +kernel) (phrase_pointer h))
    (lf (us := [w "var", w "stringVal", w "string", .sign ';', w "err", .sign ':', .sign '=', w "json", .sign '.', w "Unmarshal", .sign '(']) (by decide +kernel)
    (lf (us := [w "data", .sign ',', .sign '&', w "stringVal", .sign ')', .sign ';'] ++ USt.check.toks) (by decide +kernel)
    (lf (us := [w "val", .sign ',', w "err", .sign ':', .sign '=']) (by decide +kernel) (writes_phrase (phrase_exported hv) (by decide +kernel)
    (writes_last (us := [.sign '(', w "stringVal", .sign ')', .sign ';', .sign '*', w "b", .sign '=', w "val", .sign ';', w "return", w "err", .sign ';', .sign '}', .sign ';'])
      (by decide +kernel))))))) ?_)
  simp [unmarshalToks, enumUnmarshal, USt.toks, GoTy.toks]
  rfl

/-- `MarshalJSON` of a fixed. -/
theorem fixedMarshal_tokens {name : Str} (h : Exported name) : tokens (fixedMarshalText name) = some (marshalToks "b".toList (.named name) fixedMarshal) := by
  refine writes_tokens (writes_eq (writes_cat (writes_marshalHead (by decide +kernel) (by decide +kernel) (phrase_exported h))
    (lf (us := [w "return", .sign '[', .sign ']', w "byte", .sign '(', w "util", .sign '.', w "EncodeByteString", .sign '(']) (by decide +kernel)
    (writes_last (us := [w "b", .sign '[', .sign ':', .sign ']', .sign ')', .sign ')', .sign ',', w "nil", .sign ';', .sign '}', .sign ';']) (by decide +kernel)))) ?_)
  simp [marshalToks, fixedMarshal, MSt.toks, GoTy.toks]

theorem writes_readString : Writes false readStringText ((USt.varString "s".toList).toks ++ (USt.readString "s".toList).toks) false :=
  writes_eq (lf (us := [w "var", w "s", w "string", .sign ';', w "if", w "err", .sign ':', .sign '=', w "json", .sign '.', w "Unmarshal", .sign '(']) (by decide +kernel)
    (writes_last (us := [w "data", .sign ',', .sign '&', w "s", .sign ')', .sign ';', w "err", .sign '!', .sign '=', w "nil", .sign '{', w "return", w "err", .sign ';', .sign '}', .sign ';'])
      (by decide +kernel))) rfl

/-- `UnmarshalJSON` of a fixed. -/
theorem fixedUnmarshal_tokens {name : Str} (h : Exported name) :
    tokens (fixedUnmarshalText name) = some (unmarshalToks "b".toList (.pointer (.named name)) fixedUnmarshal) := by
  refine writes_tokens (writes_eq (writes_cat (writes_unmarshalHead (by decide +kernel) (by decide +kernel) (phrase_pointer h)) (writes_cat writes_readString
    (lf (us := (USt.defPoints "s".toList).toks) (by decide +kernel)
    (writes_last (us := USt.copyPoints.toks ++ [w "return", w "nil", .sign ';', .sign '}', .sign ';']) (by decide +kernel))))) ?_)
  simp [unmarshalToks, fixedUnmarshal, USt.toks, GoTy.toks]

/-- `MarshalJSON` of bytes. -/
theorem bytesMarshal_tokens : tokens bytesMarshalText = some (marshalToks "b".toList (.named "Bytes".toList) bytesMarshal) := by
  refine writes_tokens (writes_eq (writes_cat (writes_marshalHead (by decide +kernel) (by decide +kernel) (phrase_exported (s := "Bytes".toList) (by decide +kernel)))
    (lf (us := [w "return", .sign '[', .sign ']', w "byte", .sign '(', w "util", .sign '.', w "EncodeByteString", .sign '(']) (by decide +kernel)
    (writes_last (us := [w "b", .sign ')', .sign ')', .sign ',', w "nil", .sign ';', .sign '}', .sign ';']) (by decide +kernel)))) ?_)
  simp [marshalToks, bytesMarshal, MSt.toks, GoTy.toks]

/-- `UnmarshalJSON` of bytes. -/
theorem bytesUnmarshal_tokens : tokens bytesUnmarshalText = some (unmarshalToks "b".toList (.pointer (.named "Bytes".toList)) bytesUnmarshal) := by
  have e : "*Bytes".toList = "*".toList ++ "Bytes".toList := by decide +kernel
  unfold bytesUnmarshalText
  rw [e]
  refine writes_tokens (writes_eq (writes_cat (writes_unmarshalHead (by decide +kernel) (by decide +kernel) (phrase_pointer (s := "Bytes".toList) (by decide +kernel)))
    (writes_cat writes_readString
    (writes_last (us := (USt.setBytes "s".toList).toks ++ [w "return", w "nil", .sign ';', .sign '}', .sign ';']) (by decide +kernel)))) ?_)
  simp [unmarshalToks, bytesUnmarshal, USt.toks, GoTy.toks]

end Verif
