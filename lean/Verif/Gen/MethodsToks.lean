import Verif.Gen.MethodsText
import Verif.Gen.CodeClean
/-
The texts of the methods of generated targets are those of their programs.
-/
namespace Verif
open Spec Spec.Go Spec.GoT
set_option linter.unusedSimpArgs false
set_option maxRecDepth 4000

/-! ### Texts in pieces -/

/-- The text has the tokens, whatever follows it. The Booleans say whether the last token before, and the last of the
text, ask for a semicolon at the end of a line. -/
structure Writes (b : Bool) (s : Str) (us : List Tok) (b' : Bool) : Prop where
  clean : Clean s
  toks : ∀ r ts, Toks b' r ts → Toks b (s ++ r) (us ++ ts)

/-- The same for a text that may end in a word. -/
structure Phrase (s : Str) (us : List Tok) : Prop where
  clean : Clean s
  toks : ∀ b r ts, Apart r → Toks true r ts → Toks b (s ++ r) (us ++ ts)

/-- A constant piece. -/
def Piece (b : Bool) (c : Str) (us : List Tok) (b' : Bool) : Prop :=
  frag 80 b c = some (us, b') ∧ c.all (fun c => !forbidden c) = true

instance (b : Bool) (c : Str) (us : List Tok) (b' : Bool) : Decidable (Piece b c us b') := inferInstanceAs (Decidable (_ ∧ _))

theorem writes_nil (b : Bool) : Writes b (cat []) [] b := ⟨fun _ h => (by cases h), fun _ _ h => h⟩

theorem writes_piece {b b' : Bool} {c : Str} {us : List Tok} (h : Piece b c us b') : Writes b c us b' :=
  ⟨clean_const h.2, fun _ _ ht => toks_frag 80 h.1 ht⟩

theorem writes_cat {b b' b2 : Bool} {s : Str} {l : List Str} {us vs : List Tok} (h : Writes b s us b') (hl : Writes b' (cat l) vs b2) :
    Writes b (cat (s :: l)) (us ++ vs) b2 :=
  ⟨clean_append h.clean hl.clean, fun r ts ht => by
    rw [cat, List.append_assoc, List.append_assoc]
    exact h.toks _ _ (hl.toks _ _ ht)⟩

theorem writes_lit {b b' b2 : Bool} {c : Str} {l : List Str} {us vs : List Tok} (h : Piece b c us b') (hl : Writes b' (cat l) vs b2) :
    Writes b (cat (c :: l)) (us ++ vs) b2 := writes_cat (writes_piece h) hl

theorem lf {b b2 : Bool} {c : Str} {l : List Str} {us vs : List Tok} (h : Piece b c us false) (hl : Writes false (cat l) vs b2) :
    Writes b (cat (c :: l)) (us ++ vs) b2 := writes_lit h hl

theorem lt {b b2 : Bool} {c : Str} {l : List Str} {us vs : List Tok} (h : Piece b c us true) (hl : Writes true (cat l) vs b2) :
    Writes b (cat (c :: l)) (us ++ vs) b2 := writes_lit h hl

theorem writes_last {b b' : Bool} {c : Str} {us : List Tok} (h : Piece b c us b') : Writes b (cat [c]) us b' := by
  have := writes_lit h (writes_nil b')
  rwa [List.append_nil] at this

/-- The last piece, a text. -/
theorem writes_end {b b' : Bool} {s : Str} {us : List Tok} (h : Writes b s us b') : Writes b (cat [s]) us b' := by
  have := writes_cat h (writes_nil b')
  rwa [List.append_nil] at this

theorem writes_phrase {b b2 : Bool} {s c : Str} {l : List Str} {us vs : List Tok} (h : Phrase s us) (ha : apartB c = true)
    (hl : Writes true (cat (c :: l)) vs b2) : Writes b (cat (s :: c :: l)) (us ++ vs) b2 :=
  ⟨clean_append h.clean hl.clean, fun r ts ht => by
    rw [cat, List.append_assoc, List.append_assoc]
    refine h.toks _ _ _ ?_ (hl.toks _ _ ht)
    rw [cat, List.append_assoc]
    exact apart_append _ ha⟩

theorem writes_quotes {b : Bool} {p : Str} (hp : ∀ c ∈ p, PlainStr c) (hc : p.all (fun c => !forbidden c) = true) :
    Writes b (inQuotes p) [.text (bytesOf p)] true :=
  ⟨clean_cons (by decide) (clean_append (clean_const hc) (clean_const (by decide))), fun r ts ht => by
    have := toks_plain (b := b) hp ht
    rw [inQuotes, List.cons_append, List.append_assoc]
    exact this⟩

theorem writes_eq {b b' : Bool} {s : Str} {us vs : List Tok} (h : Writes b s us b') (e : us = vs) : Writes b s vs b' := e ▸ h

theorem writes_tokens {s : Str} {us : List Tok} (h : Writes false s us false) : tokens s = some us := by
  have := h.toks [] [] toks_nothing
  rw [List.append_nil, List.append_nil] at this
  exact tokens_of h.clean this

theorem phrase_exported {s : Str} (h : Exported s) : Phrase s [.word s] := ⟨clean_exported h, fun _ _ _ ha ht => toks_exported h ha ht⟩

theorem phrase_type (nm : Namer) (n : NS) {t : PTy} (h : NamedTy n t) : Phrase (t.goType nm n) (goTypeOf nm n t).toks :=
  ⟨clean_goType nm n t h, fun b r ts ha ht => toks_type nm n t b r ts h ha ht⟩

theorem phrase_number (i : Nat) : Phrase (Nat.toDigits 10 i) [number i] := by
  obtain ⟨-, h2, -⟩ := digits_word i
  exact ⟨clean_names fun c hc => (wordChar_iff c).1 (h2 c hc), fun _ _ _ ha ht => toks_number i ha ht⟩

/-- A constant piece and a phrase. -/
theorem phrase_after {c s : Str} {us vs : List Tok} {b' : Bool} (hc : ∀ b, Piece b c us b') (h : Phrase s vs) : Phrase (c ++ s) (us ++ vs) :=
  ⟨clean_append (clean_const (hc true).2) h.clean, fun b r ts ha ht => by
    rw [List.append_assoc, List.append_assoc]
    exact toks_frag 80 (hc b).1 (h.toks _ _ _ ha ht)⟩

theorem phrase_pointer {s : Str} (h : Exported s) : Phrase ("*".toList ++ s) (GoTy.pointer (.named s)).toks :=
  phrase_after (c := "*".toList) (us := [.sign '*']) (b' := false) (fun b => by cases b <;> decide +kernel) (phrase_exported h)

/-- A text of pieces that ends in a sign. -/
theorem phrase_of {s : Str} {us : List Tok} (h : ∀ b, Writes b s us true) : Phrase s us :=
  ⟨(h true).clean, fun b r ts _ ht => (h b).toks r ts ht⟩

theorem zero_tok : number 0 = w "0" := by decide +kernel
theorem one_tok : number 1 = w "1" := by decide +kernel

/-! ### Wrappers and constructors -/

theorem phrase_const {s : Str} (h : wordB s = true) (hc : s.all (fun c => !forbidden c) = true) : Phrase s [.word s] :=
  ⟨clean_const hc, fun _ _ _ ha ht => toks_const h ha ht⟩

theorem phrase_types {s : Str} (h : wordB s = true) (hc : s.all (fun c => !forbidden c) = true) :
    Phrase ("types.".toList ++ s) [w "types", .sign '.', .word s] :=
  phrase_after (c := "types.".toList) (us := [w "types", .sign '.']) (b' := false) (fun b => by cases b <;> decide +kernel) (phrase_const h hc)

theorem prim_wrapper (p : Prim) : (p.wrapper = none ∧ p.wrapperText = []) ∨
    ∃ W, p.wrapper = some W ∧ p.wrapperText ≠ [] ∧ Phrase p.wrapperText W.toks := by
  have key : ∀ s : String, s ≠ "" → wordB s.toList = true ∧ s.toList.all (fun c => !forbidden c) = true → ∀ t : Str, t = "types.".toList ++ s.toList →
      t ≠ [] ∧ Phrase t (GoTy.of "types".toList s.toList).toks := by
    intro s _ h t e
    subst e
    refine ⟨fun e => ?_, phrase_types h.1 h.2⟩
    have := (List.append_eq_nil_iff.1 e).1
    revert this; decide +kernel
  cases p with
  | null => exact .inl ⟨rfl, rfl⟩
  | bool => exact .inr ⟨_, rfl, key "Boolean" (by decide) (by decide +kernel) _ (by decide +kernel)⟩
  | int => exact .inr ⟨_, rfl, key "Int" (by decide) (by decide +kernel) _ (by decide +kernel)⟩
  | long => exact .inr ⟨_, rfl, key "Long" (by decide) (by decide +kernel) _ (by decide +kernel)⟩
  | float => exact .inr ⟨_, rfl, key "Float" (by decide) (by decide +kernel) _ (by decide +kernel)⟩
  | double => exact .inr ⟨_, rfl, key "Double" (by decide) (by decide +kernel) _ (by decide +kernel)⟩
  | bytes => exact .inr ⟨_, rfl, by decide +kernel, phrase_exported (s := "BytesWrapper".toList) (by decide +kernel)⟩
  | string => exact .inr ⟨_, rfl, key "String" (by decide) (by decide +kernel) _ (by decide +kernel)⟩

theorem wrapper_exported {name : Str} (h : Exported name) : Exported (wrapperName name) := exported_append h (by decide +kernel)

theorem record_text : "types.Record".toList ≠ [] ∧ Phrase "types.Record".toList recordTy.toks := by
  refine ⟨by decide +kernel, ?_⟩
  have := phrase_types (s := "Record".toList) (by decide +kernel) (by decide +kernel)
  have e : "types.".toList ++ "Record".toList = "types.Record".toList := by decide +kernel
  rw [e] at this
  exact this

theorem exported_ne {s : Str} (h : Exported s) : s ≠ [] := by rintro rfl; exact h

theorem wrapper_text (nm : Namer) (n : NS) {t : PTy} (h : NamedTy n t) : (t.wrapper nm n = none ∧ t.wrapperText nm n = []) ∨
    ∃ W, t.wrapper nm n = some W ∧ t.wrapperText nm n ≠ [] ∧ Phrase (t.wrapperText nm n) W.toks := by
  cases t with
  | prim p d => exact prim_wrapper p
  | array t d =>
    have hx := wrapper_exported (goName_exported nm n _ h)
    exact .inr ⟨_, rfl, exported_ne hx, phrase_exported hx⟩
  | map t d =>
    have hx := wrapper_exported (goName_exported nm n _ h)
    exact .inr ⟨_, rfl, exported_ne hx, phrase_exported hx⟩
  | union name ts d =>
    simp only [PTy.wrapper, PTy.wrapperText, hasNull_any]
    cases ts.any nullTy with
    | true => exact .inl ⟨rfl, rfl⟩
    | false => exact .inr ⟨_, rfl, record_text⟩
  | ref q =>
    obtain ⟨d, h1, h2⟩ := h
    have hx := wrapper_exported (publicName_exported nm h2)
    simp only [PTy.wrapper, PTy.wrapperText, h1]
    cases d.kind with
    | record fs doc => exact .inr ⟨_, rfl, record_text⟩
    | enum ss doc dflt => exact .inr ⟨_, rfl, exported_ne hx, phrase_exported hx⟩
    | fixed k => exact .inr ⟨_, rfl, exported_ne hx, phrase_exported hx⟩

theorem new_phrase {name : Str} (h : Exported name) : ∀ b, Writes b (cat ["New".toList ++ name, "()".toList]) [.word (newName name), .sign '(', .sign ')'] true :=
  fun _ => writes_phrase (us := [_]) (phrase_exported (exported_before (by decide +kernel) h)) (by decide +kernel)
    (writes_last (us := [.sign '(', .sign ')']) (by decide +kernel))

theorem cat_cons_ne {s : Str} {l : List Str} (h : s ≠ []) : cat (s :: l) ≠ [] := fun e => h (List.append_eq_nil_iff.1 e).1

theorem ctor_text (nm : Namer) (n : NS) {t : PTy} (h : NamedTy n t) : (t.ctor nm n = none ∧ t.ctorText nm n = []) ∨
    ∃ c, t.ctor nm n = some c ∧ t.ctorText nm n ≠ [] ∧ Phrase (t.ctorText nm n) c.toks := by
  have hm : ∀ b, Piece b "make(".toList [w "make", .sign '('] false := fun b => by cases b <;> decide +kernel
  cases t with
  | prim p d => exact .inl ⟨rfl, rfl⟩
  | array t d =>
    refine .inr ⟨_, rfl, cat_cons_ne (by decide +kernel), phrase_of fun b => ?_⟩
    refine writes_eq (writes_lit (hm b) (writes_phrase (phrase_type nm n h) (by decide +kernel)
      (writes_last (us := [.sign ',', w "0", .sign ')']) (by decide +kernel)))) ?_
    simp only [Ex.toks, zero_tok, List.cons_append, List.nil_append]
  | map t d =>
    refine .inr ⟨_, rfl, cat_cons_ne (by decide +kernel), phrase_of fun b => ?_⟩
    exact writes_lit (hm b) (writes_phrase (phrase_type nm n h) (by decide +kernel)
      (writes_last (us := [.sign ')']) (by decide +kernel)))
  | union name ts d =>
    exact .inr ⟨_, rfl, cat_cons_ne (by simp), phrase_of (new_phrase (goName_exported nm n _ h))⟩
  | ref q =>
    obtain ⟨d, h1, h2⟩ := h
    simp only [PTy.ctor, PTy.ctorText, h1]
    cases d.kind with
    | record fs doc => exact .inr ⟨_, rfl, cat_cons_ne (by simp), phrase_of (new_phrase (publicName_exported nm h2))⟩
    | enum ss doc dflt => exact .inl ⟨rfl, rfl⟩
    | fixed k => exact .inl ⟨rfl, rfl⟩

/-! ### Methods -/

/-- What stands before the body of a method, after its type. -/
def sigToks (name : String) (params : List (String × GoTy)) (result : Option GoTy) : List Tok :=
  .sign ')' :: .word name.toList :: .sign '(' ::
    (GoT.commas ((params.map fun p => (p.1.toList, p.2)).map paramToks) ++ .sign ')' :: (resultToks result ++ [.sign '{']))

theorem writes_method {m : Method} (x name : String) (params : List (String × GoTy)) (result : Option GoTy)
    (hm : m.recv.1 = x.toList ∧ m.name = name.toList ∧ m.params = params.map (fun p => (p.1.toList, p.2)) ∧ m.result = result)
    {o T sig : Str} {rest : List Str} (ho : Piece false o [w "func", .sign '(', .word x.toList] true)
    (hT : Phrase T m.recv.2.toks) (hs : apartB sig = true ∧ Piece true sig (sigToks name params result) false)
    (hb : Writes false (cat rest) ((if m.short then (stsToks m.body).dropLast else stsToks m.body) ++ [.sign '}', .sign ';']) false) :
    Writes false (cat (o :: T :: sig :: rest)) m.toks false := by
  obtain ⟨h1, h2, h3, h4⟩ := hm
  refine writes_eq (writes_lit ho (writes_phrase hT hs.1 (writes_lit hs.2 hb))) ?_
  unfold Method.toks sigToks
  generalize (if m.short then (stsToks m.body).dropLast else stsToks m.body) = body
  rw [h1, h2, h3, h4]
  simp only [List.append_assoc, List.cons_append, List.nil_append]

theorem unsupported_plain : (∀ c ∈ unsupported, PlainStr c) ∧ unsupported.all (fun c => !forbidden c) = true := by decide +kernel

theorem writes_stub {T : Str} {ty : GoTy} (hT : Phrase T ty.toks) {sig : String} {name : String} {params : List (String × GoTy)} {result : Option GoTy}
    (hs : apartB sig.toList = true ∧ Piece true sig.toList (sigToks name params result) false) :
    Writes false (stubText T sig) (stub ty name params result).toks false := by
  refine writes_method (m := stub ty name params result) "_" name params result ⟨rfl, rfl, rfl, rfl⟩ (by decide +kernel) hT hs ?_
  refine writes_eq (lf (us := [w "panic", .sign '(']) (by decide +kernel) (writes_cat (writes_quotes unsupported_plain.1 unsupported_plain.2)
    (writes_last (us := [.sign ')', .sign '}', .sign ';']) (by decide +kernel)))) ?_
  simp only [stub, stsToks, St.toks, if_true, List.cons_append, List.nil_append, List.dropLast]

theorem writes_finalize {T : Str} {ty : GoTy} (hT : Phrase T ty.toks) : Writes false (finalizeText T) (finalizeStub ty).toks false :=
  writes_method (m := finalizeStub ty) "_" "Finalize" [] none ⟨rfl, rfl, rfl, rfl⟩ (by decide +kernel) hT (by decide +kernel)
    (writes_last (us := [.sign '}', .sign ';']) (by decide +kernel))

section
variable {T : Str} {ty : GoTy} (hT : Phrase T ty.toks)
include hT

theorem writes_boolean : Writes false (booleanText T) (stubBoolean ty).toks false := writes_stub hT (by decide +kernel)
theorem writes_int : Writes false (intText T) (stubInt ty).toks false := writes_stub hT (by decide +kernel)
theorem writes_long : Writes false (longText T) (stubLong ty).toks false := writes_stub hT (by decide +kernel)
theorem writes_float : Writes false (floatText T) (stubFloat ty).toks false := writes_stub hT (by decide +kernel)
theorem writes_double : Writes false (doubleText T) (stubDouble ty).toks false := writes_stub hT (by decide +kernel)
theorem writes_bytes : Writes false (bytesText T) (stubBytes ty).toks false := writes_stub hT (by decide +kernel)
theorem writes_string : Writes false (stringStub T) (stubString ty).toks false := writes_stub hT (by decide +kernel)
theorem writes_unionElem : Writes false (unionElemText T) (stubUnionElem ty).toks false := writes_stub hT (by decide +kernel)
theorem writes_get : Writes false (getText T) (stubGet ty).toks false := writes_stub hT (by decide +kernel)
theorem writes_default : Writes false (defaultText T) (stubDefault ty).toks false := writes_stub hT (by decide +kernel)
theorem writes_appendMap : Writes false (appendMapText T) (stubMap ty).toks false := writes_stub hT (by decide +kernel)
theorem writes_appendArray : Writes false (appendArrayText T) (stubArray ty).toks false := writes_stub hT (by decide +kernel)
theorem writes_null : Writes false (stubText T ") NullField(int) {") (stubNull ty "").toks false := writes_stub hT (by decide +kernel)
theorem writes_nullI : Writes false (stubText T ") NullField(i int) {") (stubNull ty "i").toks false := writes_stub hT (by decide +kernel)
theorem writes_hint : Writes false (stubText T ") HintSize(int) {") (stubHint ty "").toks false := writes_stub hT (by decide +kernel)
theorem writes_hintI : Writes false (stubText T ") HintSize(i int) {") (stubHint ty "i").toks false := writes_stub hT (by decide +kernel)
end

/-- An empty line before a text. -/
theorem writes_line {s : Str} {us : List Tok} (h : Writes false s us false) : Writes false ("\n".toList ++ s) us false := by
  have := writes_lit (b := false) (c := "\n".toList) (us := []) (b' := false) (by decide +kernel) (writes_end h)
  refine ⟨clean_append (clean_const (by decide)) h.clean, fun r ts ht => ?_⟩
  have h2 := this.toks r ts ht
  rw [show cat ["\n".toList, s] = "\n".toList ++ s by simp [cat]] at h2
  exact h2

/-! Arrays -/

theorem writes_arrayHint {name type : Str} {ty : GoTy} (hn : Exported name) (ht : Phrase type ty.toks) :
    Writes false (arrayHintText name type) (arrayHint name ty).toks false := by
  refine writes_method (m := arrayHint name ty) "r" "HintSize" [("s", goInt)] none ⟨rfl, rfl, rfl, rfl⟩ (by decide +kernel) (phrase_exported hn) (by decide +kernel) ?_
  refine writes_eq (lf (us := [w "if", w "len", .sign '(', .sign '*', w "r", .sign '.', w "Target", .sign ')', .sign '=', .sign '=', w "0", .sign '{'])
    (by decide +kernel) (lf (us := [.sign '*', w "r", .sign '.', w "Target", .sign '=', w "make", .sign '(']) (by decide +kernel)
    (writes_phrase ht (by decide +kernel) (writes_last (us := [.sign ',', w "0", .sign ',', w "s", .sign ')', .sign ';', .sign '}', .sign ';', .sign '}', .sign ';'])
      (by decide +kernel))))) ?_
  simp only [arrayHint, stsToks, St.toks, Ex.toks, xSlice, xTarget, xR, zero_tok, w, if_false, Bool.false_eq_true, List.append_assoc, List.cons_append, List.nil_append]

theorem writes_panic {c d p : Str} (hp : (∀ c ∈ p, PlainStr c) ∧ p.all (fun c => !forbidden c) = true)
    (hc : Piece false c [w "panic", .sign '('] false)
    (hd : Piece true d [.sign ')', .sign ';', .sign '}', .sign ';'] false) :
    Writes false (cat [c, inQuotes p, d]) (stsToks [.panic p] ++ [.sign '}', .sign ';']) false :=
  writes_eq (writes_lit hc (writes_cat (writes_quotes hp.1 hp.2) (writes_last hd))) rfl

theorem writes_arrayNull {name : Str} (nullable : Bool) (hn : Exported name) :
    Writes false (arrayNullText name nullable) (arrayNull name nullable).toks false := by
  cases nullable with
  | true =>
    refine writes_method (m := arrayNull name true) "r" "NullField" [("i", goInt)] none ⟨rfl, rfl, rfl, rfl⟩ (by decide +kernel) (phrase_exported hn) (by decide +kernel) ?_
    refine writes_eq (lt (us := [.sign '(', .sign '*', w "r", .sign '.', w "Target", .sign ')']) (by decide +kernel)
      (writes_last (us := [.sign '[', w "len", .sign '(', .sign '*', w "r", .sign '.', w "Target", .sign ')', .sign '-', w "1", .sign ']', .sign '=', w "nil",
        .sign ';', .sign '}', .sign ';']) (by decide +kernel))) ?_
    simp only [arrayNull, stsToks, St.toks, Ex.toks, lastItem, xSlice, xTarget, xR, one_tok, w, if_false, if_true, Bool.false_eq_true,
      List.append_assoc, List.cons_append, List.nil_append]
  | false =>
    exact writes_method (m := arrayNull name false) "r" "NullField" [("i", goInt)] none ⟨rfl, rfl, rfl, rfl⟩ (by decide +kernel) (phrase_exported hn) (by decide +kernel)
      (writes_panic unsupported_plain (by decide +kernel) (by decide +kernel))

theorem stsToks_append : ∀ a b : List Spec.GoT.St, stsToks (a ++ b) = stsToks a ++ stsToks b
  | [], b => rfl
  | s :: a, b => by rw [List.cons_append, stsToks, stsToks, stsToks_append a b, List.append_assoc, List.cons_append]

theorem writes_itemMake (nm : Namer) (n : NS) {item : PTy} (h : NamedTy n item) {after : String}
    (ha : apartB after.toList = true ∧ Piece true after.toList [.sign ';'] false) :
    Writes false (itemMakeText nm n item after) (stsToks (makeStmts xV (item.ctor nm n))) false := by
  unfold itemMakeText
  rcases ctor_text nm n h with ⟨e1, e2⟩ | ⟨c, e1, e2, hc⟩
  · rw [if_pos e2, e1]; exact writes_nil false
  · rw [if_neg e2, e1]
    refine writes_eq (lf (us := [w "v", .sign '=']) (by decide +kernel) (writes_phrase hc ha.1 (writes_last ha.2))) ?_
    simp only [makeStmts, stsToks, St.toks, Ex.toks, xV, w, List.append_assoc, List.cons_append, List.nil_append]

theorem writes_arrayReturn (nm : Namer) (n : NS) {item : PTy} (h : NamedTy n item) :
    Writes false (arrayReturnText nm n item) (stsToks [.ret (wrapped (item.wrapper nm n) lastItem)] ++ [.sign '}', .sign ';']) false := by
  unfold arrayReturnText
  rcases wrapper_text nm n h with ⟨e1, e2⟩ | ⟨W, e1, e2, hW⟩
  · rw [if_pos e2, e1]
    refine writes_eq (lt (us := [w "return", .sign '(', .sign '*', w "r", .sign '.', w "Target", .sign ')']) (by decide +kernel)
      (writes_last (us := [.sign '[', w "len", .sign '(', .sign '*', w "r", .sign '.', w "Target", .sign ')', .sign '-', w "1", .sign ']',
        .sign ';', .sign '}', .sign ';']) (by decide +kernel))) ?_
    simp only [wrapped, stsToks, St.toks, Ex.toks, lastItem, xSlice, xTarget, xR, one_tok, w, List.append_assoc, List.cons_append, List.nil_append]
  · rw [if_neg e2, e1]
    refine writes_eq (lf (us := [w "return", .sign '&']) (by decide +kernel) (writes_phrase hW (by decide +kernel)
      (lt (us := [.sign '{', w "Target", .sign ':', .sign '&', .sign '(', .sign '*', w "r", .sign '.', w "Target", .sign ')']) (by decide +kernel)
      (writes_last (us := [.sign '[', w "len", .sign '(', .sign '*', w "r", .sign '.', w "Target", .sign ')', .sign '-', w "1", .sign ']', .sign '}',
        .sign ';', .sign '}', .sign ';']) (by decide +kernel))))) ?_
    simp only [wrapped, stsToks, St.toks, Ex.toks, lastItem, xSlice, xTarget, xR, one_tok, w, List.append_assoc, List.cons_append, List.nil_append]

theorem writes_arrayAppend (nm : Namer) (n : NS) {name : Str} {item : PTy} (hn : Exported name) (h : NamedTy n item) :
    Writes false (arrayAppendText nm n name item) (arrayAppend nm n name item).toks false := by
  refine writes_method (m := arrayAppend nm n name item) "r" "AppendArray" [] (some fieldTy) ⟨rfl, rfl, rfl, rfl⟩ (by decide +kernel) (phrase_exported hn) (by decide +kernel) ?_
  refine writes_eq (lt (us := [w "var", w "v"]) (by decide +kernel) (writes_phrase (phrase_type nm n h) (by decide +kernel)
    (lf (us := [.sign ';']) (by decide +kernel) (writes_cat (writes_itemMake nm n h (by decide +kernel))
    (lf (us := [.sign '*', w "r", .sign '.', w "Target", .sign '=', w "append", .sign '(']) (by decide +kernel)
    (lf (us := [.sign '*', w "r", .sign '.', w "Target", .sign ',', w "v", .sign ')', .sign ';']) (by decide +kernel)
    (writes_end (writes_arrayReturn nm n h)))))))) ?_
  simp only [arrayAppend, stsToks, stsToks_append, St.toks, Ex.toks, xSlice, xTarget, xR, xV, w, if_false, Bool.false_eq_true,
    List.append_assoc, List.cons_append, List.nil_append]

/-! Maps -/

theorem writes_mapHint {name type : Str} {ty : GoTy} (hn : Exported name) (ht : Phrase type ty.toks) :
    Writes false (mapHintText name type) (mapHint name ty).toks false := by
  refine writes_method (m := mapHint name ty) "r" "HintSize" [("s", goInt)] none ⟨rfl, rfl, rfl, rfl⟩ (by decide +kernel) (phrase_pointer hn) (by decide +kernel) ?_
  refine writes_eq (lf (us := [w "if", w "r", .sign '.', w "keys", .sign '=', .sign '=', w "nil", .sign '{'])
    (by decide +kernel) (lf (us := [w "r", .sign '.', w "keys", .sign '=', w "make", .sign '(', .sign '[', .sign ']', w "string", .sign ',', w "0",
      .sign ',', w "s", .sign ')', .sign ';']) (by decide +kernel)
    (lt (us := [w "r", .sign '.', w "values", .sign '=', w "make", .sign '(', .sign '[', .sign ']']) (by decide +kernel)
    (writes_phrase ht (by decide +kernel) (writes_last (us := [.sign ',', w "0", .sign ',', w "s", .sign ')', .sign ';', .sign '}', .sign ';', .sign '}', .sign ';'])
      (by decide +kernel)))))) ?_
  simp only [mapHint, stsToks, St.toks, Ex.toks, GoTy.toks, xKeys, xValues, xR, zero_tok, w, if_false, Bool.false_eq_true, List.append_assoc, List.cons_append,
    List.nil_append]

theorem writes_mapNull {name : Str} (nullable : Bool) (hn : Exported name) :
    Writes false (mapNullText name nullable) (mapNull name nullable).toks false := by
  cases nullable with
  | true =>
    refine writes_method (m := mapNull name true) "r" "NullField" [("_", goInt)] none ⟨rfl, rfl, rfl, rfl⟩ (by decide +kernel) (phrase_pointer hn) (by decide +kernel) ?_
    refine writes_eq (lf (us := [w "r", .sign '.']) (by decide +kernel) (writes_last (us := [w "values", .sign '[', w "len", .sign '(', w "r", .sign '.', w "values", .sign ')', .sign '-', w "1", .sign ']', .sign '=', w "nil",
        .sign ';', .sign '}', .sign ';']) (by decide +kernel))) ?_
    simp only [mapNull, stsToks, St.toks, Ex.toks, lastValue, xValues, xR, one_tok, w, if_false, if_true, Bool.false_eq_true,
      List.append_assoc, List.cons_append, List.nil_append]
  | false =>
    exact writes_method (m := mapNull name false) "r" "NullField" [("_", goInt)] none ⟨rfl, rfl, rfl, rfl⟩ (by decide +kernel) (phrase_pointer hn) (by decide +kernel)
      (writes_panic unsupported_plain (by decide +kernel) (by decide +kernel))

theorem writes_mapFinalize {name : Str} (hn : Exported name) : Writes false (mapFinalizeText name) (mapFinalize name).toks false := by
  refine writes_method (m := mapFinalize name) "r" "Finalize" [] none ⟨rfl, rfl, rfl, rfl⟩ (by decide +kernel) (phrase_pointer hn) (by decide +kernel) ?_
  refine writes_eq (lf (us := [w "for", w "i", .sign ':', .sign '=', w "range", w "r", .sign '.', w "keys", .sign '{']) (by decide +kernel)
    (lt (us := [.sign '(', .sign '*', w "r", .sign '.', w "Target", .sign ')', .sign '[', w "r", .sign '.', w "keys", .sign '[', w "i", .sign ']', .sign ']'])
      (by decide +kernel)
    (writes_last (us := [.sign '=', w "r", .sign '.', w "values", .sign '[', w "i", .sign ']', .sign ';', .sign '}', .sign ';', .sign '}', .sign ';'])
      (by decide +kernel)))) ?_
  simp only [mapFinalize, stsToks, St.toks, Ex.toks, xKeys, xValues, xSlice, xTarget, xR, xI, w, if_false, Bool.false_eq_true, List.append_assoc,
    List.cons_append, List.nil_append]

theorem writes_mapReturn (nm : Namer) (n : NS) {item : PTy} (h : NamedTy n item) :
    Writes false (mapReturnText nm n item) (stsToks [.ret (wrapped (item.wrapper nm n) lastValue)] ++ [.sign '}', .sign ';']) false := by
  unfold mapReturnText
  rcases wrapper_text nm n h with ⟨e1, e2⟩ | ⟨W, e1, e2, hW⟩
  · rw [if_pos e2, e1]
    refine writes_eq (lf (us := [w "return", w "r", .sign '.']) (by decide +kernel)
      (writes_last (us := [w "values", .sign '[', w "len", .sign '(', w "r", .sign '.', w "values", .sign ')', .sign '-', w "1", .sign ']',
        .sign ';', .sign '}', .sign ';']) (by decide +kernel))) ?_
    simp only [wrapped, stsToks, St.toks, Ex.toks, lastValue, xValues, xR, one_tok, w, List.append_assoc, List.cons_append, List.nil_append]
  · rw [if_neg e2, e1]
    refine writes_eq (lf (us := [w "return", .sign '&']) (by decide +kernel) (writes_phrase hW (by decide +kernel)
      (lf (us := [.sign '{', w "Target", .sign ':', .sign '&', w "r", .sign '.']) (by decide +kernel)
      (writes_last (us := [w "values", .sign '[', w "len", .sign '(', w "r", .sign '.', w "values", .sign ')', .sign '-', w "1", .sign ']', .sign '}',
        .sign ';', .sign '}', .sign ';']) (by decide +kernel))))) ?_
    simp only [wrapped, stsToks, St.toks, Ex.toks, lastValue, xValues, xR, one_tok, w, List.append_assoc, List.cons_append, List.nil_append]

theorem writes_mapAppend (nm : Namer) (n : NS) {name : Str} {item : PTy} (hn : Exported name) (h : NamedTy n item) :
    Writes false (mapAppendText nm n name item) (mapAppend nm n name item).toks false := by
  refine writes_method (m := mapAppend nm n name item) "r" "AppendMap" [("key", goString)] (some fieldTy) ⟨rfl, rfl, rfl, rfl⟩ (by decide +kernel)
    (phrase_pointer hn) (by decide +kernel) ?_
  refine writes_eq (lt (us := [w "r", .sign '.', w "keys", .sign '=', w "append", .sign '(', w "r", .sign '.', w "keys", .sign ',', w "key", .sign ')'])
      (by decide +kernel)
    (lt (us := [.sign ';', w "var", w "v"]) (by decide +kernel) (writes_phrase (phrase_type nm n h) (by decide +kernel)
    (lf (us := [.sign ';']) (by decide +kernel) (writes_cat (writes_itemMake nm n h (by decide +kernel))
    (lf (us := [w "r", .sign '.', w "values", .sign '=', w "append", .sign '(', w "r", .sign '.', w "values", .sign ',', w "v", .sign ')', .sign ';'])
      (by decide +kernel)
    (writes_end (writes_mapReturn nm n h)))))))) ?_
  simp only [mapAppend, stsToks, stsToks_append, St.toks, Ex.toks, xKeys, xValues, xR, xV, w, if_false, Bool.false_eq_true,
    List.append_assoc, List.cons_append, List.nil_append]

/-! Enums and fixeds -/

theorem writes_enumStub {W : Str} (hW : Exported W) {sig : String} {name : String} {params : List (String × GoTy)} {result : Option GoTy} {text : String}
    (hs : apartB sig.toList = true ∧ Piece true sig.toList (sigToks name params result) false)
    (hp : (∀ c ∈ text.toList, PlainStr c) ∧ text.toList.all (fun c => !forbidden c) = true) :
    Writes false (enumStubText W sig text) (enumStub W name params result text).toks false :=
  writes_method (m := enumStub W name params result text) "b" name params result ⟨rfl, rfl, rfl, rfl⟩ (by decide +kernel) (phrase_exported hW) hs
    (writes_panic hp (by decide +kernel) (by decide +kernel))

theorem writes_enumSetInt {W type : Str} (hW : Exported W) (ht : Exported type) : Writes false (enumSetIntText W type) (enumSetInt W type).toks false := by
  refine writes_method (m := enumSetInt W type) "b" "SetInt" [("v", .named "int32".toList)] none ⟨rfl, rfl, rfl, rfl⟩ (by decide +kernel)
    (phrase_exported hW) (by decide +kernel) ?_
  refine writes_eq (lf (us := [.sign '*', .sign '(', w "b", .sign '.', w "Target", .sign ')', .sign '=']) (by decide +kernel)
    (writes_phrase (phrase_exported ht) (by decide +kernel)
    (writes_last (us := [.sign '(', w "v", .sign ')', .sign ';', .sign '}', .sign ';']) (by decide +kernel)))) ?_
  simp only [enumSetInt, stsToks, St.toks, Ex.toks, GoTy.toks, xV, w, if_false, Bool.false_eq_true, List.append_assoc, List.cons_append, List.nil_append]

theorem writes_enumFinalize {W : Str} (hW : Exported W) : Writes false (cat ["\nfunc (b ".toList, W, ") Finalize() {".toList, "}\n".toList])
    ({ finalizeStub (.named W) with recv := ("b".toList, .named W) } : Method).toks false :=
  writes_method "b" "Finalize" [] none ⟨rfl, rfl, rfl, rfl⟩ (by decide +kernel) (phrase_exported hW) (by decide +kernel)
    (writes_last (us := [.sign '}', .sign ';']) (by decide +kernel))

theorem writes_fixedSetBytes {W : Str} (hW : Exported W) : Writes false (fixedSetBytesText W) (fixedSetBytes W).toks false := by
  refine writes_method (m := fixedSetBytes W) "r" "SetBytes" [("v", .slice (.named "byte".toList))] none ⟨rfl, rfl, rfl, rfl⟩ (by decide +kernel)
    (phrase_exported hW) (by decide +kernel) ?_
  refine writes_eq (writes_last (us := [w "copy", .sign '(', .sign '(', .sign '*', w "r", .sign '.', w "Target", .sign ')', .sign '[', .sign ':', .sign ']', .sign ',',
    w "v", .sign ')', .sign ';', .sign '}', .sign ';']) (by decide +kernel)) ?_
  simp only [fixedSetBytes, stsToks, St.toks, Ex.toks, xSlice, xTarget, xR, xV, w, if_false, Bool.false_eq_true, List.append_assoc, List.cons_append, List.nil_append]

/-! Records -/

theorem writes_fieldMake (nm : Namer) (n : NS) {f : PField} (hf : LegalName f.name ∧ LetterFirst f.name ∧ NamedTy n f.ty) :
    Writes false (fieldMakeText nm n f) (stsToks (makeStmts (.sel xR (fieldGoName nm f.name)) (f.ty.ctor nm n))) false := by
  unfold fieldMakeText
  have hx := field_exported nm hf.1 hf.2.1
  rcases ctor_text nm n hf.2.2 with ⟨e1, e2⟩ | ⟨c, e1, e2, hc⟩
  · rw [if_pos e2, e1]; exact writes_nil false
  · rw [if_neg e2, e1]
    refine writes_eq (lf (us := [w "r", .sign '.']) (by decide +kernel) (writes_phrase (phrase_exported hx) (by decide +kernel)
      (lf (us := [.sign '=']) (by decide +kernel) (writes_phrase hc (by decide +kernel) (writes_last (us := [.sign ';']) (by decide +kernel)))))) ?_
    simp only [makeStmts, stsToks, St.toks, Ex.toks, xR, w, List.append_assoc, List.cons_append, List.nil_append]

/-- What a case of `Get` returns. -/
def recordReturn (nm : Namer) (n : NS) (f : PField) : List Spec.GoT.St :=
  match f.ty.wrapper nm n with
  | none => [.ret (.sel xR (fieldGoName nm f.name))]
  | some W => [.define "w".toList (.lit W (.amp (.sel xR (fieldGoName nm f.name)))),
      .ret (if f.ty.isMap then .amp (.var "w".toList) else .var "w".toList)]

theorem recordOpen_eq (nm : Namer) (n : NS) (f : PField) :
    recordOpen nm n f = makeStmts (.sel xR (fieldGoName nm f.name)) (f.ty.ctor nm n) ++ recordReturn nm n f := rfl

theorem writes_fieldReturn (nm : Namer) (n : NS) {f : PField} (hf : LegalName f.name ∧ LetterFirst f.name ∧ NamedTy n f.ty) :
    Writes false (fieldReturnText nm n f) (stsToks (recordReturn nm n f)) false := by
  unfold fieldReturnText recordReturn
  have hx := field_exported nm hf.1 hf.2.1
  rcases wrapper_text nm n hf.2.2 with ⟨e1, e2⟩ | ⟨W, e1, e2, hW⟩
  · rw [if_pos e2, e1]
    refine writes_eq (lf (us := [w "return", w "r", .sign '.']) (by decide +kernel) (writes_phrase (phrase_exported hx) (by decide +kernel)
      (writes_last (us := [.sign ';']) (by decide +kernel)))) ?_
    simp only [stsToks, St.toks, Ex.toks, xR, w, List.append_assoc, List.cons_append, List.nil_append]
  · rw [if_neg e2, e1]
    cases f.ty.isMap with
    | true =>
      refine writes_eq (lf (us := [w "w", .sign ':', .sign '=']) (by decide +kernel) (writes_phrase hW (by decide +kernel)
        (lf (us := [.sign '{', w "Target", .sign ':', .sign '&', w "r", .sign '.']) (by decide +kernel) (writes_phrase (phrase_exported hx) (by decide +kernel)
        (lf (us := [.sign '}', .sign ';']) (by decide +kernel) (writes_last (us := [w "return", .sign '&', w "w", .sign ';']) (by decide +kernel))))))) ?_
      simp only [stsToks, St.toks, Ex.toks, xR, w, if_true, List.append_assoc, List.cons_append, List.nil_append]
    | false =>
      refine writes_eq (lf (us := [w "w", .sign ':', .sign '=']) (by decide +kernel) (writes_phrase hW (by decide +kernel)
        (lf (us := [.sign '{', w "Target", .sign ':', .sign '&', w "r", .sign '.']) (by decide +kernel) (writes_phrase (phrase_exported hx) (by decide +kernel)
        (lf (us := [.sign '}', .sign ';']) (by decide +kernel) (writes_last (us := [w "return", w "w", .sign ';']) (by decide +kernel))))))) ?_
      simp only [stsToks, St.toks, Ex.toks, xR, w, Bool.false_eq_true, if_false, List.append_assoc, List.cons_append, List.nil_append]

theorem writes_recordCases (nm : Namer) (n : NS) : ∀ (fs : List PField) (i : Nat), (∀ f ∈ fs, LegalName f.name ∧ LetterFirst f.name ∧ NamedTy n f.ty) →
    Writes false (recordCaseTexts nm n i fs) (GoT.casesToks (recordCases nm n i fs)) false
  | [], _, _ => writes_nil false
  | f :: fs, i, h => by
    have h0 := writes_recordCases nm n fs (i + 1) fun g hg => h g (by simp [hg])
    have hf := h f (by simp)
    refine writes_eq (lf (us := [w "case"]) (by decide +kernel) (writes_phrase (phrase_number i) (by decide +kernel)
      (lf (us := [.sign ':']) (by decide +kernel) (writes_cat (writes_fieldMake nm n hf) (writes_cat (writes_fieldReturn nm n hf) (writes_end h0)))))) ?_
    simp only [recordCases, GoT.casesToks, recordOpen_eq, stsToks_append, List.append_assoc, List.cons_append, List.nil_append]

theorem writes_switch {c d p : Str} {cases : Str} {cs : List (Nat × List Spec.GoT.St)} (hp : (∀ c ∈ p, PlainStr c) ∧ p.all (fun c => !forbidden c) = true)
    (hc : Piece false c [w "switch", .sign '(', w "i", .sign ')', .sign '{'] false) (hcs : Writes false cases (GoT.casesToks cs) false)
    (hd : Piece false d [.sign '}', .sign ';', w "panic", .sign '('] false) :
    Writes false (cat [c, cases, d, inQuotes p, ")\n}\n".toList]) (stsToks [.switch xI cs, .panic p] ++ [.sign '}', .sign ';']) false := by
  refine writes_eq (writes_lit hc (writes_cat hcs (writes_lit hd (writes_cat (writes_quotes hp.1 hp.2)
    (writes_last (us := [.sign ')', .sign ';', .sign '}', .sign ';']) (by decide +kernel)))))) ?_
  simp only [stsToks, St.toks, Ex.toks, xI, w, List.append_assoc, List.cons_append, List.nil_append]

theorem writes_recordGet (nm : Namer) (n : NS) {name : Str} (hn : Exported name) (fs : List PField)
    (h : ∀ f ∈ fs, LegalName f.name ∧ LetterFirst f.name ∧ NamedTy n f.ty) :
    Writes false (recordGetText nm n name fs) (recordGet nm n name fs).toks false :=
  writes_method (m := recordGet nm n name fs) "r" "Get" [("i", goInt)] (some fieldTy) ⟨rfl, rfl, rfl, rfl⟩ (by decide +kernel) (phrase_pointer hn)
    (by decide +kernel) (writes_switch (by decide +kernel) (by decide +kernel) (writes_recordCases nm n fs 0 h) (by decide +kernel))

theorem writes_nullCases (nm : Namer) (n : NS) : ∀ (fs : List PField) (i : Nat), (∀ f ∈ fs, LegalName f.name ∧ LetterFirst f.name ∧ NamedTy n f.ty) →
    Writes false (nullCaseTexts nm i fs) (GoT.casesToks (nullCases nm i fs)) false
  | [], _, _ => writes_nil false
  | f :: fs, i, h => by
    have h0 := writes_nullCases nm n fs (i + 1) fun g hg => h g (by simp [hg])
    have hf := h f (by simp)
    rw [nullCaseTexts, nullCases]
    cases f.ty.nullable with
    | true =>
      rw [if_pos rfl, if_pos rfl]
      refine writes_eq (writes_cat (lf (us := [w "case"]) (by decide +kernel) (writes_phrase (phrase_number i) (by decide +kernel)
        (lf (us := [.sign ':', w "r", .sign '.']) (by decide +kernel) (writes_phrase (phrase_exported (field_exported nm hf.1 hf.2.1)) (by decide +kernel)
        (writes_last (us := [.sign '=', w "nil", .sign ';', w "return", .sign ';']) (by decide +kernel)))))) (writes_end h0)) ?_
      simp only [GoT.casesToks, stsToks, St.toks, Ex.toks, xR, w, List.append_assoc, List.cons_append, List.nil_append]
    | false =>
      rw [if_neg (by decide), if_neg (by decide)]
      exact writes_cat (writes_nil false) (writes_end h0)

theorem writes_recordNull (nm : Namer) (n : NS) {name : Str} (hn : Exported name) (fs : List PField)
    (h : ∀ f ∈ fs, LegalName f.name ∧ LetterFirst f.name ∧ NamedTy n f.ty) :
    Writes false (recordNullText nm name fs) (recordNull nm name fs).toks false :=
  writes_method (m := recordNull nm name fs) "r" "NullField" [("i", goInt)] none ⟨rfl, rfl, rfl, rfl⟩ (by decide +kernel) (phrase_pointer hn)
    (by decide +kernel) (writes_switch (by decide +kernel) (by decide +kernel) (writes_nullCases nm n fs 0 h) (by decide +kernel))

/-! Unions -/

theorem phrase_unionRecv (nm : Namer) (n : NS) {name : Str} {ts : List PTy} {d : List Json} (h : NamedTy n (.union name ts d)) :
    Phrase (unionRecvText ts ((PTy.union name ts d).goType nm n)) (GoTy.pointer (.named ((PTy.union name ts d).goName nm n))).toks := by
  have hx := goName_exported nm n _ h
  unfold unionRecvText
  rw [goType_union]
  cases PTy.hasNull ts with
  | true => exact phrase_pointer hx
  | false => exact phrase_pointer hx

theorem writes_unionSetLong {name type : Str} {ts : List PTy} (hx : Exported name) (hT : Phrase (unionRecvText ts type) (GoTy.pointer (.named name)).toks) :
    Writes false (unionSetLongText name type ts) (unionSetLong name).toks false := by
  refine writes_method (m := unionSetLong name) "r" "SetLong" [("v", .named "int64".toList)] none ⟨rfl, rfl, rfl, rfl⟩ (by decide +kernel) hT (by decide +kernel) ?_
  refine writes_eq (lf (us := [w "r", .sign '.', w "UnionType", .sign '=', .sign '(']) (by decide +kernel)
    (writes_phrase (phrase_exported (enumType_exported hx)) (by decide +kernel)
    (writes_last (us := [.sign ')', .sign '(', w "v", .sign ')', .sign ';', .sign '}', .sign ';']) (by decide +kernel)))) ?_
  simp only [unionSetLong, stsToks, St.toks, Ex.toks, GoTy.toks, xR, xV, w, if_false, Bool.false_eq_true, List.append_assoc, List.cons_append, List.nil_append]

/-- What a case of `Get` returns. -/
def memberReturn (nm : Namer) (n : NS) (t : PTy) : List Spec.GoT.St :=
  match t.wrapper nm n with
  | none => [.ret (.sel xR (t.goName nm n))]
  | some W => [.ret (.amp (.lit W (.par (.amp (.sel xR (t.goName nm n))))))]

theorem unionOpen_eq (nm : Namer) (n : NS) (t : PTy) :
    unionOpen nm n t = makeStmts (.sel xR (t.goName nm n)) (t.ctor nm n) ++ memberReturn nm n t := rfl

theorem writes_memberCases (nm : Namer) (n : NS) : ∀ (ts : List PTy) (i : Nat), (∀ t ∈ ts, NamedTy n t) →
    Writes false (memberCaseTexts nm n i ts) (GoT.casesToks (memberCases nm n i ts)) false
  | [], _, _ => writes_nil false
  | t :: ts, i, h => by
    have h0 := writes_memberCases nm n ts (i + 1) fun g hg => h g (by simp [hg])
    have hf := h t (by simp)
    have hx := goName_exported nm n t hf
    have h1 : Writes false (if t.ctorText nm n = [] then [] else cat ["r.".toList, t.goName nm n, " = ".toList, t.ctorText nm n, "\n\t\t".toList])
        (stsToks (makeStmts (.sel xR (t.goName nm n)) (t.ctor nm n))) false := by
      rcases ctor_text nm n hf with ⟨e1, e2⟩ | ⟨c, e1, e2, hc⟩
      · rw [if_pos e2, e1]; exact writes_nil false
      · rw [if_neg e2, e1]
        refine writes_eq (lf (us := [w "r", .sign '.']) (by decide +kernel) (writes_phrase (phrase_exported hx) (by decide +kernel)
          (lf (us := [.sign '=']) (by decide +kernel) (writes_phrase hc (by decide +kernel) (writes_last (us := [.sign ';']) (by decide +kernel)))))) ?_
        simp only [makeStmts, stsToks, St.toks, Ex.toks, xR, w, List.append_assoc, List.cons_append, List.nil_append]
    have h2 : Writes false (if t.wrapperText nm n = [] then cat ["return r.".toList, t.goName nm n, "\n\t\t".toList]
        else cat ["return &".toList, t.wrapperText nm n, "{Target: (&r.".toList, t.goName nm n, ")}\n\t\t".toList])
        (stsToks (memberReturn nm n t)) false := by
      unfold memberReturn
      rcases wrapper_text nm n hf with ⟨e1, e2⟩ | ⟨W, e1, e2, hW⟩
      · rw [if_pos e2, e1]
        refine writes_eq (lf (us := [w "return", w "r", .sign '.']) (by decide +kernel) (writes_phrase (phrase_exported hx) (by decide +kernel)
          (writes_last (us := [.sign ';']) (by decide +kernel)))) ?_
        simp only [stsToks, St.toks, Ex.toks, xR, w, List.append_assoc, List.cons_append, List.nil_append]
      · rw [if_neg e2, e1]
        refine writes_eq (lf (us := [w "return", .sign '&']) (by decide +kernel) (writes_phrase hW (by decide +kernel)
          (lf (us := [.sign '{', w "Target", .sign ':', .sign '(', .sign '&', w "r", .sign '.']) (by decide +kernel)
          (writes_phrase (phrase_exported hx) (by decide +kernel) (writes_last (us := [.sign ')', .sign '}', .sign ';']) (by decide +kernel)))))) ?_
        simp only [stsToks, St.toks, Ex.toks, xR, w, List.append_assoc, List.cons_append, List.nil_append]
    refine writes_eq (lf (us := [w "case"]) (by decide +kernel) (writes_phrase (phrase_number i) (by decide +kernel)
      (lf (us := [.sign ':']) (by decide +kernel) (writes_cat h1 (writes_cat h2 (writes_end h0)))))) ?_
    simp only [memberCases, GoT.casesToks, unionOpen_eq, stsToks_append, List.append_assoc, List.cons_append, List.nil_append]

theorem writes_unionGet (nm : Namer) (n : NS) {name type : Str} {ts : List PTy}
    (hT : Phrase (unionRecvText ts type) (GoTy.pointer (.named name)).toks) (h : ∀ t ∈ ts, NamedTy n t) :
    Writes false (unionGetText nm n type ts) (unionGet nm n name ts).toks false :=
  writes_method (m := unionGet nm n name ts) "r" "Get" [("i", goInt)] (some fieldTy) ⟨rfl, rfl, rfl, rfl⟩ (by decide +kernel) hT
    (by decide +kernel) (writes_switch (by decide +kernel) (by decide +kernel) (writes_memberCases nm n ts 0 h) (by decide +kernel))

theorem writes_unionFinalize {T : Str} {ty : GoTy} (hT : Phrase T ty.toks) :
    Writes false (cat ["func (_ ".toList, T, ") Finalize()  {".toList, " }\n".toList]) (finalizeStub ty).toks false :=
  writes_method (m := finalizeStub ty) "_" "Finalize" [] none ⟨rfl, rfl, rfl, rfl⟩ (by decide +kernel) hT (by decide +kernel)
    (writes_last (us := [.sign '}', .sign ';']) (by decide +kernel))

/-! ### All methods of a type -/

/-- Text by text the tokens of the methods. -/
def TextsOf : List Str → List Method → Prop
  | [], [] => True
  | s :: ss, m :: ms => tokens s = some m.toks ∧ TextsOf ss ms
  | _, _ => False

theorem texts_cons {s : Str} {m : Method} {ss : List Str} {ms : List Method} (h : Writes false s m.toks false) (hs : TextsOf ss ms) :
    TextsOf (s :: ss) (m :: ms) := ⟨writes_tokens h, hs⟩

theorem texts_map : ∀ {ss : List Str} {ms : List Method}, TextsOf ss ms → ss.map tokens = ms.map fun m => some m.toks
  | [], [], _ => rfl
  | s :: ss, m :: ms, h => by rw [List.map_cons, List.map_cons, h.1, texts_map h.2]
  | [], _ :: _, h => h.elim
  | _ :: _, [], h => h.elim

theorem texts_record (nm : Namer) (n : NS) {name : Str} (hn : Exported name) (fs : List PField)
    (h : ∀ f ∈ fs, LegalName f.name ∧ LetterFirst f.name ∧ NamedTy n f.ty) : TextsOf (recordMethodTexts nm n name fs) (recordMethodsOf nm n name fs) := by
  have hT : Phrase name (GoTy.named name).toks := phrase_exported hn
  exact texts_cons (writes_boolean hT) (texts_cons (writes_int hT) (texts_cons (writes_long hT) (texts_cons (writes_float hT) (texts_cons (writes_double hT)
    (texts_cons (writes_bytes hT) (texts_cons (writes_string hT) (texts_cons (writes_unionElem hT) (texts_cons (writes_recordGet nm n hn fs h)
    (texts_cons (writes_recordNull nm n hn fs h) (texts_cons (writes_line (writes_appendMap hT)) (texts_cons (writes_appendArray hT)
    (texts_cons (writes_hint hT) (texts_cons (writes_finalize hT) trivial)))))))))))))

theorem texts_union (nm : Namer) (n : NS) {name : Str} {ts : List PTy} {d : List Json} (h : NamedTy n (.union name ts d)) :
    TextsOf (unionMethodTexts nm n ((PTy.union name ts d).goName nm n) ((PTy.union name ts d).goType nm n) ts)
      (unionMethodsOf nm n ((PTy.union name ts d).goName nm n) (goTypeOf nm n (.union name ts d)) ts) := by
  have hT := phrase_type nm n h
  have hr := phrase_unionRecv nm n h
  have hs : ∀ u ∈ ts, NamedTy n u := by
    have := h
    simp only [NamedTy] at this
    exact namedTys_mem this.2
  exact texts_cons (writes_boolean hT) (texts_cons (writes_int hT) (texts_cons (writes_float hT) (texts_cons (writes_double hT)
    (texts_cons (writes_bytes hT) (texts_cons (writes_string hT) (texts_cons (writes_unionSetLong (goName_exported nm n _ h) hr)
    (texts_cons (writes_unionGet nm n hr hs) (texts_cons (writes_nullI hT) (texts_cons (writes_hintI hT) (texts_cons (writes_default hT)
    (texts_cons (writes_appendMap hT) (texts_cons (writes_appendArray hT) (texts_cons (writes_unionFinalize hT) trivial)))))))))))))

theorem texts_array (nm : Namer) (n : NS) {name type : Str} {ty : GoTy} {item : PTy} (hn : Exported name) (ht : Phrase type ty.toks) (hi : NamedTy n item) :
    TextsOf (arrayMethodTexts nm n name type item) (arrayMethodsOf nm n name ty item) := by
  have hT : Phrase name (GoTy.named name).toks := phrase_exported hn
  exact texts_cons (writes_boolean hT) (texts_cons (writes_int hT) (texts_cons (writes_long hT) (texts_cons (writes_float hT) (texts_cons (writes_double hT)
    (texts_cons (writes_bytes hT) (texts_cons (writes_string hT) (texts_cons (writes_unionElem hT) (texts_cons (writes_get hT)
    (texts_cons (writes_appendMap hT) (texts_cons (writes_finalize hT) (texts_cons (writes_default hT) (texts_cons (writes_arrayHint hn ht)
    (texts_cons (writes_arrayNull _ hn) (texts_cons (writes_arrayAppend nm n hn hi) trivial))))))))))))))

theorem texts_map_methods (nm : Namer) (n : NS) {name : Str} {item : PTy} (hn : Exported name) (hi : NamedTy n item) :
    TextsOf (mapMethodTexts nm n name item) (mapMethodsOf nm n name item) := by
  have hT := phrase_pointer hn
  exact texts_cons (writes_boolean hT) (texts_cons (writes_int hT) (texts_cons (writes_long hT) (texts_cons (writes_float hT) (texts_cons (writes_double hT)
    (texts_cons (writes_bytes hT) (texts_cons (writes_string hT) (texts_cons (writes_unionElem hT) (texts_cons (writes_get hT)
    (texts_cons (writes_default hT) (texts_cons (writes_mapHint hn (phrase_type nm n hi)) (texts_cons (writes_mapNull _ hn) (texts_cons (writes_mapFinalize hn)
    (texts_cons (writes_mapAppend nm n hn hi) (texts_cons (writes_line (writes_appendArray hT)) trivial))))))))))))))

theorem texts_enum {W type : Str} (hW : Exported W) (ht : Exported type) : TextsOf (enumMethodTexts W type) (enumMethodsOf W type) :=
  texts_cons (writes_enumStub hW (by decide +kernel) (by decide +kernel)) (texts_cons (writes_enumSetInt hW ht)
    (texts_cons (writes_enumStub hW (by decide +kernel) (by decide +kernel)) (texts_cons (writes_enumStub hW (by decide +kernel) (by decide +kernel))
    (texts_cons (writes_enumStub hW (by decide +kernel) (by decide +kernel)) (texts_cons (writes_enumStub hW (by decide +kernel) (by decide +kernel))
    (texts_cons (writes_enumStub hW (by decide +kernel) (by decide +kernel)) (texts_cons (writes_enumStub hW (by decide +kernel) (by decide +kernel))
    (texts_cons (writes_enumStub hW (by decide +kernel) (by decide +kernel)) (texts_cons (writes_enumStub hW (by decide +kernel) (by decide +kernel))
    (texts_cons (writes_enumStub hW (by decide +kernel) (by decide +kernel)) (texts_cons (writes_enumStub hW (by decide +kernel) (by decide +kernel))
    (texts_cons (writes_enumStub hW (by decide +kernel) (by decide +kernel)) (texts_cons (writes_enumStub hW (by decide +kernel) (by decide +kernel))
    (texts_cons (writes_enumFinalize hW) trivial))))))))))))))

theorem texts_fixed {W : Str} (hW : Exported W) : TextsOf (fixedMethodTexts W) (fixedMethodsOf W) := by
  have hT : Phrase W (GoTy.named W).toks := phrase_exported hW
  exact texts_cons (writes_boolean hT) (texts_cons (writes_int hT) (texts_cons (writes_long hT) (texts_cons (writes_float hT) (texts_cons (writes_double hT)
    (texts_cons (writes_fixedSetBytes hW) (texts_cons (writes_string hT) (texts_cons (writes_unionElem hT) (texts_cons (writes_get hT)
    (texts_cons (writes_appendMap hT) (texts_cons (writes_appendArray hT) (texts_cons (writes_null hT) (texts_cons (writes_hint hT)
    (texts_cons (writes_finalize hT) (texts_cons (writes_default hT) trivial))))))))))))))

/-! ### Declarations of wrappers -/

theorem tokens_wrapper {name type : Str} {ty : GoTy} (hn : Exported name) (ht : Phrase type ty.toks) :
    tokens (wrapperDecl name type) = some (structToks name [⟨"Target".toList, .pointer ty, none⟩]) := by
  refine writes_tokens (writes_eq (lf (us := [w "type"]) (by decide +kernel) (writes_phrase (phrase_exported hn) (by decide +kernel)
    (lf (us := [w "struct", .sign '{', w "Target", .sign '*']) (by decide +kernel) (writes_phrase ht (by decide +kernel)
    (writes_last (us := [.sign ';', .sign '}', .sign ';']) (by decide +kernel)))))) ?_)
  simp only [structToks, Member.toks, GoTy.toks, List.flatMap_cons, List.flatMap_nil, Option.map_none, Option.toList_none, w, List.append_assoc, List.cons_append,
    List.nil_append, List.append_nil]

theorem tokens_mapWrapper {name type : Str} {ty : GoTy} (hn : Exported name) (ht : Phrase type ty.toks) :
    tokens (mapWrapperDecl name type) = some (structToks name [⟨"Target".toList, .pointer (.dict ty), none⟩,
      ⟨"keys".toList, .slice goString, none⟩, ⟨"values".toList, .slice ty, none⟩]) := by
  refine writes_tokens (writes_eq (lf (us := [w "type"]) (by decide +kernel) (writes_phrase (phrase_exported hn) (by decide +kernel)
    (lt (us := [w "struct", .sign '{', w "Target", .sign '*', w "map", .sign '[', w "string", .sign ']']) (by decide +kernel) (writes_phrase ht (by decide +kernel)
    (lt (us := [.sign ';', w "keys", .sign '[', .sign ']', w "string", .sign ';', w "values", .sign '[', .sign ']']) (by decide +kernel)
    (writes_phrase ht (by decide +kernel)
    (writes_last (us := [.sign ';', .sign '}', .sign ';']) (by decide +kernel)))))))) ?_)
  simp only [structToks, Member.toks, GoTy.toks, goString, List.flatMap_cons, List.flatMap_nil, Option.map_none, Option.toList_none, w, List.append_assoc,
    List.cons_append, List.nil_append, List.append_nil]

end Verif
