import Verif.Gen.Code
import Verif.Gen.TextDecl
/-
The texts of the generated serializers are those of their programs.
-/
namespace Verif
open Spec Spec.Go
set_option linter.unusedSimpArgs false

/-! Words -/

theorem write_word {name : Str} (h : ∀ c ∈ name, NameChar c) : writeName name ≠ [] ∧ (∀ c ∈ writeName name, wordChar c = true) ∧
    Tok.ends (.word (writeName name)) = true := by
  obtain ⟨h1, h2, h3⟩ : ("write".toList).length = 5 ∧ (∀ c ∈ "write".toList, wordChar c = true) ∧
      ∀ k ∈ openKeywords, k.take 5 ≠ "write".toList := by decide +kernel
  unfold writeName
  generalize "write".toList = p at h1 h2 h3
  refine ⟨?_, ?_, ?_⟩
  · intro e
    have := (List.append_eq_nil_iff.1 e).1
    rw [this] at h1; cases h1
  · intro c hc
    rcases List.mem_append.1 hc with hc | hc
    · exact h2 c hc
    · exact (wordChar_iff c).2 (h c hc)
  · simp only [Tok.ends, Bool.not_eq_true']
    rw [List.contains_eq_mem, decide_eq_false_iff_not]
    intro hk
    refine h3 _ hk ?_
    rw [← h1, List.take_left]

theorem toks_write {b : Bool} {name r : Str} {ts : List Tok} (h : ∀ c ∈ name, NameChar c) (hr : Apart r) (ht : Toks true r ts) :
    Toks b (writeName name ++ r) (.word (writeName name) :: ts) := by
  obtain ⟨h1, h2, h3⟩ := write_word h
  exact toks_word h1 h2 hr (by rw [h3]; exact ht)

theorem writers_words : wordB "WriteNull".toList = true ∧ wordB "WriteBool".toList = true ∧ wordB "WriteInt".toList = true ∧
    wordB "WriteLong".toList = true ∧ wordB "WriteFloat".toList = true ∧ wordB "WriteDouble".toList = true ∧
    wordB "WriteBytes".toList = true ∧ wordB "WriteString".toList = true := by decide +kernel

theorem frag_vm (b : Bool) : frag 5 b "vm.".toList = some ([w "vm", .sign '.'], false) := by
  cases b <;> decide +kernel

theorem serializer_word (p : Prim) : wordB p.serializer = true := by
  obtain ⟨h1, h2, h3, h4, h5, h6, h7, h8⟩ := writers_words
  cases p
  · exact h1
  · exact h2
  · exact h3
  · exact h4
  · exact h5
  · exact h6
  · exact h7
  · exact h8

/-- The name of a serializer. -/
theorem toks_serializer (nm : Namer) (n : NS) {t : PTy} (ht : NamedTy n t) {b : Bool} {r : Str} {ts : List Tok} (hr : Apart r)
    (h : Toks true r ts) : Toks b (t.serializerText nm n ++ r) ((t.serializer nm n).toks ++ ts) := by
  cases t with
  | prim p d =>
    have h1 := toks_const (b := false) (serializer_word p) hr h
    have h2 := toks_frag 5 (frag_vm b) h1
    simp only [PTy.serializerText, List.append_assoc]
    exact h2
  | array t d => exact toks_write (exported_chars (goName_exported nm n _ ht)) hr h
  | map t d => exact toks_write (exported_chars (goName_exported nm n _ ht)) hr h
  | union name us d => exact toks_write (exported_chars (goName_exported nm n _ ht)) hr h
  | ref q => exact toks_write (exported_chars (goName_exported nm n _ ht)) hr h

/-- How a type is written, whatever follows. -/
def Types (type : Str) (ty : GoTy) : Prop :=
  ∀ (b : Bool) (r : Str) (ts : List Tok), Apart r → Toks true r ts → Toks b (type ++ r) (ty.toks ++ ts)

theorem types_of (nm : Namer) (n : NS) {t : PTy} (h : NamedTy n t) : Types (t.goType nm n) (goTypeOf nm n t) :=
  fun b r ts hr ht => toks_type nm n t b r ts h hr ht

theorem types_named {name : Str} (h : Exported name) : Types name (.named name) :=
  fun b r ts hr ht => toks_exported (b := b) h hr ht

theorem toks_writeHead {name type : Str} {ty : GoTy} (hn : Exported name) (ht : Types type ty) {r : Str} {body : List Stmt}
    (h : Toks false r (stmtsToks body ++ [.sign '}', .sign ';'])) :
    Toks false (writeHead name type ++ r) (writeFunc name ty body).toks := by
  have h1 := toks_frag 60 (b := true) (c := ", w io.Writer) error {\n".toList)
    (us := [.sign ',', w "w", w "io", .sign '.', w "Writer", .sign ')', w "error", .sign '{']) (by decide +kernel) h
  have h2 := ht true _ _ (apart_append _ (by decide +kernel)) h1
  have h3 := toks_frag 30 (b := true) (c := "(r ".toList) (us := [.sign '(', w "r"]) (by decide +kernel) h2
  have h4 := toks_write (b := false) (exported_chars hn) (apart_append _ (by decide +kernel)) h3
  have h5 := toks_frag 30 (b := false) (c := "\nfunc ".toList) (us := [w "func"]) (by decide +kernel) h4
  have e : writeHead name type ++ r =
      "\nfunc ".toList ++ (writeName name ++ ("(r ".toList ++ (type ++ (", w io.Writer) error {\n".toList ++ r)))) := by
    unfold writeHead
    generalize "\nfunc ".toList = a
    generalize "(r ".toList = b
    generalize ", w io.Writer) error {\n".toList = c
    simp only [List.append_assoc]
  have e2 : (writeFunc name ty body).toks = [w "func"] ++ Tok.word (writeName name) :: ([Tok.sign '(', w "r"] ++ (ty.toks ++
      ([.sign ',', w "w", w "io", .sign '.', w "Writer", .sign ')', w "error", .sign '{'] ++ (stmtsToks body ++ [.sign '}', .sign ';'])))) := by
    simp only [writeFunc, Func.toks, List.map_cons, List.map_nil, commas, GoTy.toks, w, List.append_assoc, List.cons_append, List.nil_append]
  rw [e, e2]
  exact h5

/-! Arrays and maps -/

/-- `err := vm.WriteLong(int64(len(r)), w)`. -/
def countStmts : List Stmt :=
  [.define ["err".toList] (vmCall "WriteLong" (.conv "int64".toList (.len vR))),
   .cond (.or (.ne vErr .nil) (.eq (.len vR) (.num 0))) [.ret vErr]]

theorem toks_count {last : Str} (hl : frag 30 true last = some ([.sign ',', w "w", .sign ')', .sign ';'], false)) {r : Str} {ts : List Tok} (h : Toks false r ts) :
    Toks false (countText last ++ r) (stmtsToks countStmts ++ ts) := by
  have h1 := toks_frag 60 (b := false) (c := "len(r) == 0 {\n\t\treturn err\n\t}\n".toList)
    (us := [w "len", .sign '(', w "r", .sign ')', .sign '=', .sign '=', w "0", .sign '{', w "return", w "err", .sign ';', .sign '}', .sign ';'])
    (by decide +kernel) h
  have h2 := toks_frag 60 (b := false) (c := "\tif err != nil || ".toList)
    (us := [w "if", w "err", .sign '!', .sign '=', w "nil", .sign '|', .sign '|']) (by decide +kernel) h1
  have h3 := toks_frag 30 hl h2
  have h4 := toks_frag 30 (b := false) (c := "int64(len(r))".toList)
    (us := [w "int64", .sign '(', w "len", .sign '(', w "r", .sign ')', .sign ')']) (by decide +kernel) h3
  have h5 := toks_frag 60 (b := false) (c := "\terr := vm.WriteLong(".toList)
    (us := [w "err", .sign ':', .sign '=', w "vm", .sign '.', w "WriteLong", .sign '(']) (by decide +kernel) h4
  have e : countText last ++ r = "\terr := vm.WriteLong(".toList ++ ("int64(len(r))".toList ++ (last ++
      ("\tif err != nil || ".toList ++ ("len(r) == 0 {\n\t\treturn err\n\t}\n".toList ++ r)))) := by
    unfold countText
    generalize "\terr := vm.WriteLong(".toList = a
    generalize "int64(len(r))".toList = b
    generalize "\tif err != nil || ".toList = c
    generalize "len(r) == 0 {\n\t\treturn err\n\t}\n".toList = d
    simp only [List.append_assoc]
  have e0 : number 0 = w "0" := by decide +kernel
  have e2 : stmtsToks countStmts ++ ts = [w "err", .sign ':', .sign '=', w "vm", .sign '.', w "WriteLong", .sign '('] ++
      ([w "int64", .sign '(', w "len", .sign '(', w "r", .sign ')', .sign ')'] ++ ([.sign ',', w "w", .sign ')', .sign ';'] ++
      ([w "if", w "err", .sign '!', .sign '=', w "nil", .sign '|', .sign '|'] ++ ([w "len", .sign '(', w "r", .sign ')', .sign '=', .sign '=',
        w "0", .sign '{', w "return", w "err", .sign ';', .sign '}', .sign ';'] ++ ts)))) := by
    simp only [countStmts, stmtsToks, Stmt.toks, vmCall, vR, vW, vErr, Expr.toks, exprsToks, Callee.toks, List.map_cons, List.map_nil, commas, e0, w,
      List.append_assoc, List.cons_append, List.nil_append]
  rw [e, e2]
  exact h5

theorem toks_check {r : Str} {ts : List Tok} (h : Toks false r ts) : Toks false (checkText ++ r) (errCheck.toks ++ ts) := by
  have h1 := toks_frag 60 (b := false) (c := "\t\t\treturn err\n\t\t}\n".toList) (us := [w "return", w "err", .sign ';', .sign '}', .sign ';'])
    (by decide +kernel) h
  have h2 := toks_frag 60 (b := false) (c := "\t\tif err != nil {\n".toList)
    (us := [w "if", w "err", .sign '!', .sign '=', w "nil", .sign '{']) (by decide +kernel) h1
  have e : checkText ++ r = "\t\tif err != nil {\n".toList ++ ("\t\t\treturn err\n\t\t}\n".toList ++ r) := by
    unfold checkText
    rw [List.append_assoc]
  have e2 : errCheck.toks ++ ts = [w "if", w "err", .sign '!', .sign '=', w "nil", .sign '{'] ++
      ([w "return", w "err", .sign ';', .sign '}', .sign ';'] ++ ts) := by
    simp only [errCheck, stmtsToks, Stmt.toks, vErr, Expr.toks, w, List.append_assoc, List.cons_append, List.nil_append]
  rw [e, e2]
  exact h2

/-- `err = f(x, w)` and the check. -/
theorem toks_item {item : Str} {f : Callee} (hf : ∀ (b : Bool) (r : Str) (ts : List Tok), Apart r → Toks true r ts → Toks b (item ++ r) (f.toks ++ ts))
    {r : Str} {ts : List Tok} (h : Toks false r ts) :
    Toks false ("\t\terr = ".toList ++ (item ++ ("(e, w)\n".toList ++ (checkText ++ r))))
      (stmtsToks [.assign ["err".toList] (.call f [vE, vW]), errCheck] ++ ts) := by
  have h1 := toks_frag 30 (b := true) (c := "(e, w)\n".toList) (us := [.sign '(', w "e", .sign ',', w "w", .sign ')', .sign ';'])
    (by decide +kernel) (toks_check h)
  have h2 := hf false _ _ (apart_append _ (by decide +kernel)) h1
  have h3 := toks_frag 30 (b := false) (c := "\t\terr = ".toList) (us := [w "err", .sign '=']) (by decide +kernel) h2
  have e2 : stmtsToks [.assign ["err".toList] (.call f [vE, vW]), errCheck] ++ ts = [w "err", .sign '='] ++ (f.toks ++
      ([.sign '(', w "e", .sign ',', w "w", .sign ')', .sign ';'] ++ (errCheck.toks ++ ts))) := by
    simp only [stmtsToks, Stmt.toks, vE, vW, Expr.toks, exprsToks, List.map_cons, List.map_nil, commas, w, List.append_assoc, List.cons_append,
      List.nil_append]
  rw [e2]
  exact h3

theorem toks_array {name type item : Str} {ty : GoTy} {f : Callee} (hn : Exported name) (ht : Types type ty)
    (hf : ∀ (b : Bool) (r : Str) (ts : List Tok), Apart r → Toks true r ts → Toks b (item ++ r) (f.toks ++ ts)) :
    Toks false (arrayCode name type item) (arrayFunc name ty f).toks := by
  have h0 : Toks false "\t}\n\treturn vm.WriteLong(0,w)\n}\n".toList
      [.sign '}', .sign ';', w "return", w "vm", .sign '.', w "WriteLong", .sign '(', w "0", .sign ',', w "w", .sign ')', .sign ';', .sign '}', .sign ';'] :=
    toks_last 60 (by decide +kernel)
  have h1 := toks_item hf h0
  have h2 := toks_frag 60 (b := false) (c := "\tfor _, e := range r {\n".toList)
    (us := [w "for", w "_", .sign ',', w "e", .sign ':', .sign '=', w "range", w "r", .sign '{']) (by decide +kernel) h1
  have h3 := toks_count (last := ",w)\n".toList) (by decide +kernel) h2
  refine toks_writeHead hn ht ?_
  have e0 : number 0 = w "0" := by decide +kernel
  refine Eq.mp (congrArg _ ?_) h3
  simp only [countStmts, stmtsToks, Stmt.toks, vmCall, vR, vW, vErr, Expr.toks, exprsToks, Callee.toks, List.map_cons, List.map_nil, commas, e0, w,
      List.append_assoc, List.cons_append, List.nil_append]

theorem toks_map {name type item : Str} {ty : GoTy} {f : Callee} (hn : Exported name) (ht : Types type ty)
    (hf : ∀ (b : Bool) (r : Str) (ts : List Tok), Apart r → Toks true r ts → Toks b (item ++ r) (f.toks ++ ts)) :
    Toks false (mapCode name type item) (mapFunc name ty f).toks := by
  have h0 : Toks false "\t}\n\treturn vm.WriteLong(0, w)\n}\n".toList
      [.sign '}', .sign ';', w "return", w "vm", .sign '.', w "WriteLong", .sign '(', w "0", .sign ',', w "w", .sign ')', .sign ';', .sign '}', .sign ';'] :=
    toks_last 60 (by decide +kernel)
  have h1 := toks_check (toks_item hf h0)
  have h2 := toks_frag 60 (b := false) (c := "\t\terr = vm.WriteString(k, w)\n".toList)
    (us := [w "err", .sign '=', w "vm", .sign '.', w "WriteString", .sign '(', w "k", .sign ',', w "w", .sign ')', .sign ';']) (by decide +kernel) h1
  have h2 := toks_frag 60 (b := false) (c := "\tfor k, e := range r {\n".toList)
    (us := [w "for", w "k", .sign ',', w "e", .sign ':', .sign '=', w "range", w "r", .sign '{']) (by decide +kernel) h2
  have h3 := toks_count (last := ", w)\n".toList) (by decide +kernel) h2
  refine toks_writeHead hn ht ?_
  have e0 : number 0 = w "0" := by decide +kernel
  refine Eq.mp (congrArg _ ?_) h3
  simp only [countStmts, stmtsToks, Stmt.toks, vmCall, vR, vW, vErr, vK, Expr.toks, exprsToks, Callee.toks, List.map_cons, List.map_nil, commas, e0, w,
      List.append_assoc, List.cons_append, List.nil_append]

/-! Enums and fixed -/

theorem toks_enumCode {name : Str} (hn : Exported name) : Toks false (enumCode name) (enumFunc name).toks := by
  have h0 : Toks false "\treturn vm.WriteInt(int32(r), w)\n}\n".toList
      [w "return", w "vm", .sign '.', w "WriteInt", .sign '(', w "int32", .sign '(', w "r", .sign ')', .sign ',', w "w", .sign ')', .sign ';',
        .sign '}', .sign ';'] := toks_last 60 (by decide +kernel)
  refine toks_writeHead hn (types_named hn) ?_
  refine Eq.mp (congrArg _ ?_) h0
  simp only [stmtsToks, Stmt.toks, vmCall, vR, vW, Expr.toks, exprsToks, Callee.toks, List.map_cons, List.map_nil, commas, w,
      List.append_assoc, List.cons_append, List.nil_append]

theorem toks_fixedCode {name : Str} (hn : Exported name) : Toks false (fixedCode name) (fixedFunc name).toks := by
  have h0 : Toks false "\t_, err := w.Write(r[:])\n\treturn err\n}\n".toList
      [w "_", .sign ',', w "err", .sign ':', .sign '=', w "w", .sign '.', w "Write", .sign '(', w "r", .sign '[', .sign ':', .sign ']', .sign ')', .sign ';',
        w "return", w "err", .sign ';', .sign '}', .sign ';'] := toks_last 60 (by decide +kernel)
  refine toks_writeHead hn (types_named hn) ?_
  refine Eq.mp (congrArg _ ?_) h0
  simp only [stmtsToks, Stmt.toks, vR, vErr, Expr.toks, exprsToks, Callee.toks, List.map_cons, List.map_nil, commas, w,
      List.append_assoc, List.cons_append, List.nil_append]

/-! Records -/

theorem toks_fieldTexts (nm : Namer) (n : NS) {r : Str} {ts : List Tok} (h : Toks false r ts) : ∀ (fs : List PField),
    (∀ f ∈ fs, LegalName f.name ∧ LetterFirst f.name ∧ NamedTy n f.ty) →
    Toks false (fieldTexts nm n fs ++ r) (stmtsToks (fieldStmts nm n fs) ++ ts)
  | [], _ => h
  | f :: fs, hs => by
    obtain ⟨a1, a2, a3⟩ := hs f (by simp)
    have h0 := toks_fieldTexts nm n h fs fun g hg => hs g (by simp [hg])
    have h1 := toks_frag 60 (b := true) (c := ", w)\n\tif err != nil {\n\t\treturn err\n\t}\n\t".toList)
      (us := [.sign ',', w "w", .sign ')', .sign ';', w "if", w "err", .sign '!', .sign '=', w "nil", .sign '{', w "return", w "err", .sign ';',
        .sign '}', .sign ';']) (by decide +kernel) h0
    have h2 := toks_exported (b := false) (field_exported nm a1 a2) (apart_append _ (by decide +kernel)) h1
    have h3 := toks_frag 30 (b := true) (c := "( r.".toList) (us := [.sign '(', w "r", .sign '.']) (by decide +kernel) h2
    have h4 := toks_serializer nm n a3 (b := false) (apart_append _ (by decide +kernel)) h3
    have h5 := toks_frag 30 (b := false) (c := "err = ".toList) (us := [w "err", .sign '=']) (by decide +kernel) h4
    have e : fieldTexts nm n (f :: fs) ++ r = "err = ".toList ++ (f.ty.serializerText nm n ++ ("( r.".toList ++ (fieldGoName nm f.name ++
        (", w)\n\tif err != nil {\n\t\treturn err\n\t}\n\t".toList ++ (fieldTexts nm n fs ++ r))))) := by
      rw [fieldTexts]
      generalize "err = ".toList = a
      generalize "( r.".toList = b
      generalize ", w)\n\tif err != nil {\n\t\treturn err\n\t}\n\t".toList = c
      simp only [List.append_assoc]
    rw [e]
    refine Eq.mp (congrArg _ ?_) h5
    simp only [fieldStmts, errCheck, stmtsToks, Stmt.toks, vR, vW, vErr, Expr.toks, exprsToks, List.map_cons, List.map_nil, commas, w,
      List.append_assoc, List.cons_append, List.nil_append]

theorem stmtsToks_append : ∀ (a b : List Stmt), stmtsToks (a ++ b) = stmtsToks a ++ stmtsToks b
  | [], b => rfl
  | s :: a, b => by rw [List.cons_append, stmtsToks, stmtsToks, stmtsToks_append a b, List.append_assoc]

theorem toks_recordCode (nm : Namer) (n : NS) {name : Str} (hn : Exported name) (fs : List PField)
    (hs : ∀ f ∈ fs, LegalName f.name ∧ LetterFirst f.name ∧ NamedTy n f.ty) :
    Toks false (recordCode nm n name fs) (recordFunc nm n name fs).toks := by
  have h0 : Toks false "return err\n}\n".toList [w "return", w "err", .sign ';', .sign '}', .sign ';'] := toks_last 60 (by decide +kernel)
  have h1 := toks_fieldTexts nm n h0 fs hs
  have h2 := toks_frag 30 (b := false) (c := "\tvar err error\n\t".toList) (us := [w "var", w "err", w "error", .sign ';']) (by decide +kernel) h1
  refine toks_writeHead hn (types_named hn) ?_
  refine Eq.mp (congrArg _ ?_) h2
  simp only [stmtsToks, stmtsToks_append, Stmt.toks, vErr, Expr.toks, w, List.append_assoc, List.cons_append, List.nil_append]

/-! Unions -/

theorem enumType_exported {name : Str} (h : Exported name) : Exported (unionEnumType name) := exported_append h (by decide +kernel)

theorem toks_unionCases (nm : Namer) (n : NS) {type : Str} (htype : Exported type) (null : Option Nat) {r : Str} {ts : List Tok} (h : Toks false r ts) :
    ∀ (us : List PTy) (i : Nat), (∀ u ∈ us, NamedTy n u) →
    Toks false (unionCaseTexts nm n type null i us ++ r) (casesToks (unionCases nm n type null i us) ++ ts)
  | [], _, _ => h
  | u :: us, i, hs => by
    have hu := hs u (by simp)
    have h0 := toks_unionCases nm n htype null h us (i + 1) fun g hg => hs g (by simp [hg])
    rw [unionCaseTexts, unionCases]
    by_cases hi : null = some i
    · rw [if_pos hi, if_pos hi]; exact h0
    rw [if_neg hi, if_neg hi]
    have hx := goName_exported nm n u hu
    have h1 := toks_frag 30 (b := true) (c := ", w)\n          ".toList) (us := [.sign ',', w "w", .sign ')', .sign ';']) (by decide +kernel) h0
    have h2 := toks_exported (b := false) hx (apart_append _ (by decide +kernel)) h1
    have h3 := toks_frag 30 (b := true) (c := "(r.".toList) (us := [.sign '(', w "r", .sign '.']) (by decide +kernel) h2
    have h4 := toks_serializer nm n hu (b := true) (apart_append _ (by decide +kernel)) h3
    have h5 := toks_frag 30 (b := true) (c := ":\n\t\treturn ".toList) (us := [.sign ':', w "return"]) (by decide +kernel) h4
    have h6 := toks_exported (b := false) (exported_before htype hx) (apart_append _ (by decide +kernel)) h5
    have h7 := toks_frag 30 (b := false) (c := "case ".toList) (us := [w "case"]) (by decide +kernel) h6
    generalize hA : "case ".toList = A at h7 ⊢
    generalize hB : ":\n\t\treturn ".toList = B at h7 ⊢
    generalize hC : "(r.".toList = C at h7 ⊢
    generalize hD : ", w)\n          ".toList = D at h7 ⊢
    simp only [List.append_assoc] at h7 ⊢
    refine Eq.mp (congrArg _ ?_) h7
    simp only [casesToks, stmtsToks, Stmt.toks, vR, vW, Expr.toks, exprsToks, List.map_cons, List.map_nil, commas, w,
      List.append_assoc, List.cons_append, List.nil_append]

theorem message_plain {type : Str} (h : ∀ c ∈ type, PlainStr c) : ∀ c ∈ unionMessage type, PlainStr c := by
  intro c hc
  rcases List.mem_append.1 hc with hc | hc
  · exact invalid_plain.1 c hc
  · exact h c hc

theorem toks_unionNull (null : Option Nat) {r : Str} {ts : List Tok} (h : Toks false r ts) :
    Toks false (unionNullText null ++ r) (stmtsToks (unionNull null) ++ ts) := by
  cases null with
  | none =>
    exact toks_frag 30 (b := false) (c := "\t\n".toList) (us := []) (by decide +kernel) h
  | some i =>
    have h1 := toks_frag 60 (b := true) (c := ", w)\n\t\treturn err\n\t}\n        \n".toList)
      (us := [.sign ',', w "w", .sign ')', .sign ';', w "return", w "err", .sign ';', .sign '}', .sign ';']) (by decide +kernel) h
    have h2 := toks_number (b := false) i (apart_append _ (by decide +kernel)) h1
    have h3 := toks_frag 30 (b := false) (c := "\t\terr := vm.WriteLong(".toList)
      (us := [w "err", .sign ':', .sign '=', w "vm", .sign '.', w "WriteLong", .sign '(']) (by decide +kernel) h2
    have h4 := toks_frag 30 (b := false) (c := "\t\n\tif r == nil {\n".toList)
      (us := [w "if", w "r", .sign '=', .sign '=', w "nil", .sign '{']) (by decide +kernel) h3
    have e : unionNullText (some i) ++ r = "\t\n\tif r == nil {\n".toList ++ ("\t\terr := vm.WriteLong(".toList ++ (Nat.toDigits 10 i ++
        (", w)\n\t\treturn err\n\t}\n        \n".toList ++ r))) := by
      unfold unionNullText
      generalize "\t\n\tif r == nil {\n".toList = a
      generalize "\t\terr := vm.WriteLong(".toList = b
      generalize ", w)\n\t\treturn err\n\t}\n        \n".toList = c
      simp only [List.append_assoc]
    rw [e]
    refine Eq.mp (congrArg _ ?_) h4
    simp only [unionNull, stmtsToks, Stmt.toks, vmCall, vR, vW, vErr, Expr.toks, exprsToks, Callee.toks, List.map_cons, List.map_nil, commas, w,
      List.append_assoc, List.cons_append, List.nil_append]

theorem toks_unionCode (nm : Namer) (n : NS) {name type : Str} {ty : GoTy} (hn : Exported name) (ht : Types type ty) (hp : ∀ c ∈ type, PlainStr c)
    (ts : List PTy) (hs : ∀ u ∈ ts, NamedTy n u) :
    Toks false (unionCode nm n name type ts) (unionFunc nm n name ty type ts).toks := by
  have h0 : Toks true ")\n}\n".toList [.sign ')', .sign ';', .sign '}', .sign ';'] := toks_last 60 (by decide +kernel)
  have h1 := toks_plain (b := false) (message_plain hp) h0
  have h2 := toks_frag 60 (b := false) (c := "}\n\treturn fmt.Errorf(".toList)
    (us := [.sign '}', .sign ';', w "return", w "fmt", .sign '.', w "Errorf", .sign '(']) (by decide +kernel) h1
  have h3 := toks_unionCases nm n (enumType_exported hn) (nullAt 0 ts) h2 ts 0 hs
  have h4 := toks_frag 60 (b := false) (c := "\tswitch r.UnionType{\n\t".toList)
    (us := [w "switch", w "r", .sign '.', w "UnionType", .sign '{']) (by decide +kernel) h3
  have h5 := toks_frag 60 (b := false) (c := "\tif err != nil {\n\t\treturn err\n\t}\n".toList)
    (us := [w "if", w "err", .sign '!', .sign '=', w "nil", .sign '{', w "return", w "err", .sign ';', .sign '}', .sign ';']) (by decide +kernel) h4
  have h6 := toks_frag 60 (b := false) (c := "int64(r.UnionType), w)\n".toList)
    (us := [w "int64", .sign '(', w "r", .sign '.', w "UnionType", .sign ')', .sign ',', w "w", .sign ')', .sign ';']) (by decide +kernel) h5
  have h7 := toks_frag 60 (b := false) (c := "\terr := vm.WriteLong(".toList)
    (us := [w "err", .sign ':', .sign '=', w "vm", .sign '.', w "WriteLong", .sign '(']) (by decide +kernel) h6
  have h8 := toks_unionNull (nullAt 0 ts) h7
  refine toks_writeHead hn ht ?_
  refine Eq.mp (congrArg _ ?_) h8
  simp only [errCheck, stmtsToks, stmtsToks_append, Stmt.toks, vmCall, vR, vW, vErr, Expr.toks, exprsToks, Callee.toks, List.map_cons, List.map_nil, commas, w,
      List.append_assoc, List.cons_append, List.nil_append]

/-! Serialize -/

theorem toks_serialize {name type : Str} {ty : GoTy} (hn : Exported name) (ht : Types type ty) :
    Toks false (serializeText name type) (serializeMethod name ty).toks := by
  have h0 : Toks true "(r, w)\n}\n".toList [.sign '(', w "r", .sign ',', w "w", .sign ')', .sign ';', .sign '}', .sign ';'] :=
    toks_last 60 (by decide +kernel)
  have h1 := toks_write (b := true) (exported_chars hn) (fun c r e => by
    have : "(r, w)\n}\n".toList = '(' :: "r, w)\n}\n".toList := by decide +kernel
    rw [this] at e; cases e; decide +kernel) h0
  have h2 := toks_frag 30 (b := false) (c := "\treturn ".toList) (us := [w "return"]) (by decide +kernel) h1
  have h3 := toks_frag 60 (b := true) (c := ") Serialize(w io.Writer) error {\n".toList)
    (us := [.sign ')', w "Serialize", .sign '(', w "w", w "io", .sign '.', w "Writer", .sign ')', w "error", .sign '{']) (by decide +kernel) h2
  have h4 := ht true _ _ (apart_append _ (by decide +kernel)) h3
  have h5 := toks_frag 30 (b := false) (c := "\nfunc (r ".toList) (us := [w "func", .sign '(', w "r"]) (by decide +kernel) h4
  refine Eq.mp (congrArg _ ?_) h5
  simp only [serializeMethod, Func.toks, GoTy.toks, stmtsToks, Stmt.toks, vR, vW, Expr.toks, exprsToks, Callee.toks, List.map_cons, List.map_nil, commas, w,
      List.append_assoc, List.cons_append, List.nil_append]

end Verif
