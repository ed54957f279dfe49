import Verif.Gen.FileNames
import Verif.Props.Text
import Verif.Props.Code
import Verif.Props.LibText
/-
What each part of a generated file declares.
-/
set_option autoImplicit false
namespace Verif
open Spec Spec.Go Props
set_option linter.unusedSimpArgs false

/-! ### Imports and the parts without a program -/

theorem part_imports {paths : List Str} (h : tokens (importText paths) = some (Spec.GoE.importToks paths)) : Part (importText paths) [] :=
  part_tokens h (by unfold importText; ends) (import_names paths)

theorem part_used : Part usedText [] :=
  part_tokens (us := [w "var", w "_", .sign '=', w "fmt", .sign '.', w "Printf"] ++ [.sign ';']) (by decide +kernel) (by unfold usedText; ends)
    (names_one (by brackets []) (by decide +kernel))

theorem part_bytesType : Part "\ntype Bytes []byte\n".toList ["Bytes".toList] :=
  part_tokens (us := [w "type", w "Bytes", .sign '[', .sign ']', w "byte"] ++ [.sign ';']) (by decide +kernel) (by ends)
    (names_one (by brackets []) (by decide +kernel))

theorem part_append {s t : Str} {ns ms : List Str} (h : Part s ns) (h' : Part t ms) : Part (s ++ t) (ns ++ ms) := by
  obtain ⟨us, h1, h2⟩ := h
  obtain ⟨vs, h3, h4⟩ := h'
  refine ⟨us ++ vs, fun r ws hr => ?_, names_append h2 h4⟩
  rw [List.append_assoc, List.append_assoc]
  exact h1 _ _ (h3 r ws hr)

theorem part_reader {name : Str} (h : Exported name) : Part (readerStructText name) [readerName name] := by
  have e : readerStructText name = "\n// container reader\n".toList ++ cat ["type ".toList, readerName name, " struct {\n\tr io.Reader\n\tp *vm.Program\n}\n".toList] := by
    have : "\n// container reader\ntype ".toList = "\n// container reader\n".toList ++ "type ".toList := by decide +kernel
    rw [readerStructText, cat, this, List.append_assoc]
    rfl
  rw [e]
  refine part_append (ns := []) (part_tokens (us := []) (by decide +kernel) (line_of (by decide +kernel)) names_nil) ?_
  refine part_tokens (us := (w "type" :: .word (readerName name) :: [w "struct", .sign '{', w "r", w "io", .sign '.', w "Reader", .sign ';', w "p", .sign '*', w "vm", .sign '.', w "Program",
    .sign ';', .sign '}']) ++ [.sign ';']) (writes_tokens (writes_eq (lf (us := [w "type"]) (by decide +kernel) (writes_phrase (phrase_exported (reader_exported h)) (by decide +kernel)
    (writes_last (us := [w "struct", .sign '{', w "r", w "io", .sign '.', w "Reader", .sign ';', w "p", .sign '*', w "vm", .sign '.', w "Program",
    .sign ';', .sign '}', .sign ';']) (by decide +kernel)))) rfl)) (by ends) (names_one (by brackets []) rfl)

theorem part_fingerprintMethod {name : Str} (h : Exported name) : Part (fingerprintMethodText name) [] := by
  refine part_tokens (us := ([w "func", .sign '(', w "_", .word name] ++ [.sign ')', w "AvroCRC64Fingerprint", .sign '(', .sign ')', .sign '[', .sign ']', w "byte", .sign '{',
    w "return", .sign '[', .sign ']', w "byte", .sign '(', .word (name ++ "AvroCRC64Fingerprint".toList), .sign ')', .sign ';', .sign '}']) ++ [.sign ';'])
    (writes_tokens (writes_eq (lt (us := [w "func", .sign '(', w "_"]) (by decide +kernel) (writes_phrase (phrase_exported h) (by decide +kernel)
    (lf (us := [.sign ')', w "AvroCRC64Fingerprint", .sign '(', .sign ')', .sign '[', .sign ']', w "byte", .sign '{']) (by decide +kernel)
    (lf (us := [w "return", .sign '[', .sign ']', w "byte", .sign '(']) (by decide +kernel)
    (writes_phrase (phrase_exported (exported_append h (by decide +kernel))) (by decide +kernel)
    (writes_last (us := [.sign ')', .sign ';', .sign '}', .sign ';']) (by decide +kernel))))))) rfl)) (by unfold fingerprintMethodText; ends) (names_one (by brackets []) rfl)

theorem part_unionNew {name type : Str} {ty : GoTy} (h : Exported name) (ht : Phrase type ty.toks) (ts : List PTy) : Part (unionNewText name type ts) [newName name] := by
  have amp : ∀ c : Bool, Part (cat ["\n\nfunc ".toList, newName name, "() ".toList, type, " {\n\treturn ".toList, if c then "&".toList else [], name, "{}\n} \n".toList]) [newName name] := by
    intro c
    refine part_tokens (us := ([w "func", .word (newName name), .sign '(', .sign ')'] ++ (ty.toks ++ ([.sign '{', w "return"] ++ ((if c then [.sign '&'] else []) ++ [.word name, .sign '{', .sign '}',
      .sign ';', .sign '}'])))) ++ [.sign ';']) (writes_tokens ?_) (by ends) (names_one ?_ rfl)
    · have tail := writes_phrase (b := false) (phrase_exported h) (c := "{}\n} \n".toList) (by decide +kernel) (writes_last (b' := false) (us := [.sign '{', .sign '}', .sign ';', .sign '}', .sign ';']) (by decide +kernel))
      have tail' := writes_phrase (b := true) (phrase_exported h) (c := "{}\n} \n".toList) (by decide +kernel) (writes_last (b' := false) (us := [.sign '{', .sign '}', .sign ';', .sign '}', .sign ';']) (by decide +kernel))
      cases c with
      | true =>
        refine writes_eq (lf (us := [w "func"]) (by decide +kernel) (writes_phrase (phrase_exported (new_exported h)) (by decide +kernel)
          (lt (us := [.sign '(', .sign ')']) (by decide +kernel) (writes_phrase ht (by decide +kernel) (lt (us := [.sign '{', w "return"]) (by decide +kernel)
          (lf (us := [.sign '&']) (by decide +kernel) tail)))))) ?_
        simp
      | false =>
        refine writes_eq (lf (us := [w "func"]) (by decide +kernel) (writes_phrase (phrase_exported (new_exported h)) (by decide +kernel)
          (lt (us := [.sign '(', .sign ')']) (by decide +kernel) (writes_phrase ht (by decide +kernel) (lt (us := [.sign '{', w "return"]) (by decide +kernel)
          (lt (c := []) (us := []) (by decide +kernel) tail')))))) ?_
        simp
    · cases c <;> brackets [ty_walk, if_true, if_false, Bool.false_eq_true]
  exact amp _

/-! ### Parts with a program -/

theorem part_writes {s : Str} {us : List Tok} {ns : List Str} (h : Writes false s us false) (hl : Line s) (hn : Declares us ns) : Part s ns :=
  part_tokens (writes_tokens h) hl hn

theorem level_of_ty {t : GoTy} : Level t.toks := level_ty t

theorem part_recordDecode {name : Str} (h : Exported name) : Part (recordDecodeText name) ["Deserialize".toList ++ name] :=
  part_writes (writes_recordDecode h) (by unfold recordDecodeText evalText; ends)
    (fn_names (recordDecode false name) (by intro p hp; rw [List.mem_singleton.1 hp]; exact fun d => by brackets [readerToks]) (fun d => rfl))

theorem part_recordDecodeFrom {name : Str} (h : Exported name) : Part (recordDecodeFromText name) ["Deserialize".toList ++ (name ++ "FromSchema".toList)] :=
  part_writes (writes_recordDecodeFrom h) (by unfold recordDecodeFromText evalText; ends)
    (fn_names (recordDecode true name) (by
      intro p hp
      rcases List.mem_cons.1 hp with rfl | hp
      · exact fun d => by brackets [readerToks]
      · rw [List.mem_singleton.1 hp]; exact fun d => rfl) (fun d => rfl))

theorem part_unionDecode {name type : Str} {ty : GoTy} (h : Exported name) (ht : Phrase type ty.toks) (ts : List PTy) :
    Part (unionDecodeText name type ts) ["Deserialize".toList ++ name] :=
  part_writes (writes_unionDecode h ht ts) (by unfold unionDecodeText unionEvalText; ends)
    (fn_names (unionDecode false name ty.toks _) (by intro p hp; rw [List.mem_singleton.1 hp]; exact fun d => by brackets [readerToks]) (level_ty ty))

theorem part_unionDecodeFrom {name type : Str} {ty : GoTy} (h : Exported name) (ht : Phrase type ty.toks) (ts : List PTy) :
    Part (unionDecodeFromText name type ts) ["Deserialize".toList ++ (name ++ "FromSchema".toList)] :=
  part_writes (writes_unionDecodeFrom h ht ts) (by unfold unionDecodeFromText unionEvalText; ends)
    (fn_names (unionDecode true name ty.toks _) (by
      intro p hp
      rcases List.mem_cons.1 hp with rfl | hp
      · exact fun d => by brackets [readerToks]
      · rw [List.mem_singleton.1 hp]; exact fun d => rfl) (level_ty ty))

theorem part_newWriter {name : Str} (h : Exported name) : Part (newWriterText name) [newName (name ++ "Writer".toList)] :=
  part_writes (writes_newWriter h) (by unfold newWriterText; ends)
    (fn_names (newWriterFn name) (by
      intro p hp
      simp only [newWriterFn, List.mem_cons, List.not_mem_nil, or_false] at hp
      rcases hp with rfl | rfl | rfl <;> exact fun d => by brackets []) (fun d => by brackets [newWriterFn]))

theorem part_newReader {name : Str} (h : Exported name) : Part (newReaderText name) [newName (readerName name)] :=
  part_writes (writes_newReader h) (by unfold newReaderText; ends)
    (fn_names (newReaderFn name) (by intro p hp; rw [List.mem_singleton.1 hp]; exact fun d => by brackets [readerToks]) (fun d => by brackets [newReaderFn]))

theorem part_read {name : Str} (h : Exported name) : Part (readText name) [] :=
  part_writes (writes_readRecord h) (by unfold readText; ends)
    (fn_names (readFn name) (by intro p hp; cases hp) (fun d => rfl))

/-! ### Container files and the file of bytes -/

theorem container_parts {name : Str} (h : Exported name) : Parts (containerFile name)
    [[], [newName (name ++ "Writer".toList)], [readerName name], [newName (readerName name)], []] :=
  .cons (part_imports (by decide +kernel)) (.cons (part_newWriter h) (.cons (part_reader h) (.cons (part_newReader h) (.cons (part_read h) .nil))))

theorem bytes_parts : Parts bytesFile [[], ["Bytes".toList], [], [], ["BytesWrapper".toList]] :=
  .cons (part_imports (by decide +kernel)) (.cons part_bytesType (.cons (part_tokens bytesUnmarshal_tokens (by unfold bytesUnmarshalText; ends)
    (unmarshal_names _ _ (by intro s hs; revert s; simp [bytesUnmarshal, PlainRead])))
  (.cons (part_tokens bytesMarshal_tokens (by unfold bytesMarshalText; ends) (marshal_names _ _ _))
  (.cons (part_tokens bytesWrapper_text (line_of (by decide +kernel)) (names_append (ns := [_]) (struct_names _ _) (methods_names _))) .nil))))

/-! ### Arrays and maps -/

theorem func_part {s : Str} {f : Func} (h : tokens s = some f.toks) (hl : Line s) (hr : f.recv = none) : Part s [f.name] := by
  have := func_names f
  rw [hr] at this
  exact part_tokens h hl this

theorem writer_text (nm : Namer) (n : NS) {t : PTy} (ht : NamedTy n t) (hr : ∀ q, t ≠ .ref q) {s : Str} {f : Func} (hs : t.writerText nm n = some s)
    (hf : t.writer nm n = some f) : tokens s = some f.toks := by
  have := serializer_text nm n t ht (fun q d fs doc e => absurd e (hr q))
  rw [hs, hf] at this
  exact Option.some.inj this

theorem parts_append {ss ss' : List Str} {ns ns' : List (List Str)} (h : Parts ss ns) (h' : Parts ss' ns') : Parts (ss ++ ss') (ns ++ ns') := by
  induction h with
  | nil => exact h'
  | cons h _ ih => exact .cons h ih

theorem lines_nil : ∀ s ∈ ([] : List Str), Line s := fun s hs => by cases hs
theorem lines_cons {s : Str} {l : List Str} (h : Line s) (hl : ∀ s ∈ l, Line s) : ∀ x ∈ s :: l, Line x :=
  fun x hx => (List.mem_cons.1 hx).elim (fun e => e ▸ h) (hl x)

theorem line_stub (type : Str) (sig : String) : Line (stubText type sig) := by unfold stubText; ends
theorem line_finalize (type : Str) : Line (finalizeText type) := by unfold finalizeText; ends
theorem line_arrayHint (name type : Str) : Line (arrayHintText name type) := by unfold arrayHintText; ends
theorem line_arrayNull (name : Str) (b : Bool) : Line (arrayNullText name b) := by unfold arrayNullText; ends
theorem line_arrayAppend (nm : Namer) (n : NS) (name : Str) (item : PTy) : Line (arrayAppendText nm n name item) := by unfold arrayAppendText arrayReturnText; ends
theorem line_mapHint (name type : Str) : Line (mapHintText name type) := by unfold mapHintText; ends
theorem line_mapNull (name : Str) (b : Bool) : Line (mapNullText name b) := by unfold mapNullText; ends
theorem line_mapFinalize (type : Str) : Line (mapFinalizeText type) := by unfold mapFinalizeText; ends
theorem line_mapAppend (nm : Namer) (n : NS) (name : Str) (item : PTy) : Line (mapAppendText nm n name item) := by unfold mapAppendText mapReturnText; ends
theorem line_enumStub (name : Str) (sig text : String) : Line (enumStubText name sig text) := by unfold enumStubText; ends
theorem line_enumSetInt (name type : Str) : Line (enumSetIntText name type) := by unfold enumSetIntText; ends
theorem line_fixedSetBytes (name : Str) : Line (fixedSetBytesText name) := by unfold fixedSetBytesText; ends
theorem line_unionSetLong (name type : Str) (ts : List PTy) : Line (unionSetLongText name type ts) := by unfold unionSetLongText; ends
theorem line_unionGet (nm : Namer) (n : NS) (type : Str) (ts : List PTy) : Line (unionGetText nm n type ts) := by unfold unionGetText; ends
theorem line_recordGet (nm : Namer) (n : NS) (name : Str) (fs : List PField) : Line (recordGetText nm n name fs) := by unfold recordGetText; ends
theorem line_recordNull (nm : Namer) (name : Str) (fs : List PField) : Line (recordNullText nm name fs) := by unfold recordNullText; ends

theorem array_lines (nm : Namer) (n : NS) (name type : Str) (item : PTy) : ∀ s ∈ arrayMethodTexts nm n name type item, Line s :=
  lines_cons (line_stub _ _) (lines_cons (line_stub _ _) (lines_cons (line_stub _ _) (lines_cons (line_stub _ _) (lines_cons (line_stub _ _) (lines_cons (line_stub _ _) (lines_cons (line_stub _ _) (lines_cons (line_stub _ _) (lines_cons (line_stub _ _) (lines_cons (line_stub _ _) (lines_cons (line_finalize _) (lines_cons (line_stub _ _) (lines_cons (line_arrayHint _ _) (lines_cons (line_arrayNull _ _) (lines_cons (line_arrayAppend _ _ _ _) (lines_nil)))))))))))))))

theorem map_lines (nm : Namer) (n : NS) (name : Str) (item : PTy) : ∀ s ∈ mapMethodTexts nm n name item, Line s :=
  lines_cons (line_stub _ _) (lines_cons (line_stub _ _) (lines_cons (line_stub _ _) (lines_cons (line_stub _ _) (lines_cons (line_stub _ _) (lines_cons (line_stub _ _) (lines_cons (line_stub _ _) (lines_cons (line_stub _ _) (lines_cons (line_stub _ _) (lines_cons (line_stub _ _) (lines_cons (line_mapHint _ _) (lines_cons (line_mapNull _ _) (lines_cons (line_mapFinalize _) (lines_cons (line_mapAppend _ _ _ _) (lines_cons (line_append (line_stub _ _)) (lines_nil)))))))))))))))

theorem fixed_lines (name : Str) : ∀ s ∈ fixedMethodTexts name, Line s :=
  lines_cons (line_stub _ _) (lines_cons (line_stub _ _) (lines_cons (line_stub _ _) (lines_cons (line_stub _ _) (lines_cons (line_stub _ _) (lines_cons (line_fixedSetBytes _) (lines_cons (line_stub _ _) (lines_cons (line_stub _ _) (lines_cons (line_stub _ _) (lines_cons (line_stub _ _) (lines_cons (line_stub _ _) (lines_cons (line_stub _ _) (lines_cons (line_stub _ _) (lines_cons (line_finalize _) (lines_cons (line_stub _ _) (lines_nil)))))))))))))))

theorem enum_lines (name type : Str) : ∀ s ∈ enumMethodTexts name type, Line s :=
  lines_cons (line_enumStub _ _ _) (lines_cons (line_enumSetInt _ _) (lines_cons (line_enumStub _ _ _) (lines_cons (line_enumStub _ _ _) (lines_cons (line_enumStub _ _ _) (lines_cons (line_enumStub _ _ _) (lines_cons (line_enumStub _ _ _) (lines_cons (line_enumStub _ _ _) (lines_cons (line_enumStub _ _ _) (lines_cons (line_enumStub _ _ _) (lines_cons (line_enumStub _ _ _) (lines_cons (line_enumStub _ _ _) (lines_cons (line_enumStub _ _ _) (lines_cons (line_enumStub _ _ _) (lines_cons (by ends) (lines_nil)))))))))))))))

theorem union_lines (nm : Namer) (n : NS) (name type : Str) (ts : List PTy) : ∀ s ∈ unionMethodTexts nm n name type ts, Line s :=
  lines_cons (line_stub _ _) (lines_cons (line_stub _ _) (lines_cons (line_stub _ _) (lines_cons (line_stub _ _) (lines_cons (line_stub _ _) (lines_cons (line_stub _ _) (lines_cons (line_unionSetLong _ _ _) (lines_cons (line_unionGet _ _ _ _) (lines_cons (line_stub _ _) (lines_cons (line_stub _ _) (lines_cons (line_stub _ _) (lines_cons (line_stub _ _) (lines_cons (line_stub _ _) (lines_cons (by ends) (lines_nil))))))))))))))

theorem array_parts (nm : Namer) (n : NS) {t : PTy} {d : Json} (h : NamedTy n (.array t d)) :
    Parts (arrayFile nm n ((PTy.array t d).goName nm n) ((PTy.array t d).goType nm n) t)
      ([[], [writeName ((PTy.array t d).goName nm n)], [(PTy.array t d).goName nm n ++ "Wrapper".toList]] ++
        (arrayMethodTexts nm n ((PTy.array t d).goName nm n ++ "Wrapper".toList) ((PTy.array t d).goType nm n) t).map fun _ => []) := by
  have hx := goName_exported nm n _ h
  refine parts_append (.cons (part_imports (by decide +kernel)) (.cons (func_part (writer_text nm n h (by simp) rfl rfl) (by unfold arrayCode; ends) rfl)
    (.cons (part_tokens (tokens_wrapper (wrapper_exported hx) (phrase_type nm n h)) (by unfold wrapperDecl; ends) (struct_names _ _)) .nil))) ?_
  exact texts_parts (texts_array nm n (wrapper_exported hx) (phrase_type nm n h) h) (array_lines _ _ _ _ _)

theorem map_parts (nm : Namer) (n : NS) {t : PTy} {d : Json} (h : NamedTy n (.map t d)) :
    Parts (mapFile nm n ((PTy.map t d).goName nm n) ((PTy.map t d).goType nm n) t)
      ([[], [writeName ((PTy.map t d).goName nm n)], [(PTy.map t d).goName nm n ++ "Wrapper".toList]] ++
        (mapMethodTexts nm n ((PTy.map t d).goName nm n ++ "Wrapper".toList) t).map fun _ => []) := by
  have hx := goName_exported nm n _ h
  refine parts_append (.cons (part_imports (by decide +kernel)) (.cons (func_part (writer_text nm n h (by simp) rfl rfl) (by unfold mapCode; ends) rfl)
    (.cons (part_tokens (tokens_mapWrapper (wrapper_exported hx) (phrase_type nm n (t := t) h)) (by unfold mapWrapperDecl; ends) (struct_names _ _)) .nil))) ?_
  exact texts_parts (texts_map_methods nm n (wrapper_exported hx) h) (map_lines _ _ _ _)

/-! ### Fixeds and enums -/

theorem fixed_parts (nm : Namer) (n : NS) {d : PDef} (hd : Dotted d.name.str) {size : Int} (hk : d.kind = .fixed size) : Parts (fixedFile (d.goName nm) size.toNat)
      ([[], [writeName (d.goName nm)], [d.goName nm ++ "Wrapper".toList], [d.goName nm], [], []] ++
        (fixedMethodTexts (d.goName nm ++ "Wrapper".toList)).map fun _ => []) := by
  have hx : Exported (d.goName nm) := publicName_exported nm hd
  have hw := definition_text nm n d hd (by intro fs doc e; rw [hk] at e; cases e)
  rw [PDef.writerText, PDef.writer, hk] at hw
  refine parts_append (.cons (part_imports (by decide +kernel)) (.cons (func_part hw (by unfold fixedCode; ends) rfl)
    (.cons (part_tokens (tokens_wrapper (ty := .named (d.goName nm)) (wrapper_exported hx) (phrase_exported hx)) (by unfold wrapperDecl; ends) (struct_names _ _))
    (.cons (part_tokens (fixed_declaration nm d hd size.toNat) (by unfold fixedText; ends)
      (names_one (us := [w "type", .word (d.goName nm), .sign '[', number size.toNat, .sign ']', w "byte"]) (by brackets []) rfl))
    (.cons (part_tokens (fixedUnmarshal_tokens hx) (by unfold fixedUnmarshalText; ends) (unmarshal_names _ _ (by intro s hs; revert s; simp [fixedUnmarshal, PlainRead])))
    (.cons (part_tokens (fixedMarshal_tokens hx) (by unfold fixedMarshalText; ends) (marshal_names _ _ _)) .nil)))))) ?_
  exact texts_parts (texts_fixed (wrapper_exported hx)) (fixed_lines _)

theorem zipIdx_names : ∀ (l : List Str) (i : Nat), (l.zipIdx i).map (·.1) = l
  | [], _ => rfl
  | a :: l, i => by rw [List.zipIdx_cons, List.map_cons, zipIdx_names l]

theorem enum_parts (nm : Namer) (n : NS) {print : Char → Bool} (hp : Printing print) {d : PDef} (hd : Dotted d.name.str) {syms : List Str} {doc dv : Str}
    (hk : d.kind = .enum syms doc dv) (hdoc : ∀ c ∈ doc, forbidden c = false) (hs : ∀ s ∈ syms, LegalName s) (hv : dv = [] ∨ LegalName dv) :
    Parts (enumFile nm print (d.goName nm) doc dv syms)
      ([[], [], d.goName nm :: syms.map (symbolGoName nm (d.goName nm)), [], [writeName (d.goName nm)], [valueName (d.goName nm)], [], [], [d.goName nm ++ "Wrapper".toList]] ++
        (enumMethodTexts (d.goName nm ++ "Wrapper".toList) (d.goName nm)).map fun _ => []) := by
  have hx : Exported (d.goName nm) := publicName_exported nm hd
  have hw := definition_text nm n d hd (by intro fs doc e; rw [hk] at e; cases e)
  rw [PDef.writerText, PDef.writer, hk] at hw
  have hconst : Part (enumText nm (d.goName nm) doc syms) (d.goName nm :: syms.map (symbolGoName nm (d.goName nm))) := by
    have := enum_names (d.goName nm) "int32".toList ((syms.map (symbolGoName nm (d.goName nm))).zipIdx)
    rw [zipIdx_names] at this
    exact part_tokens (enum_constants nm d syms doc dv hk hd hdoc hs) (by unfold enumText; ends) this
  have hstr : Part (stringText nm print (d.goName nm) syms) [] := by
    refine part_tokens ((enum_strings nm print hp d syms hd hs).trans (congrArg some (a₂ := (([w "func", .sign '(', w "e", .word (d.goName nm), .sign ')', w "String", .sign '(', .sign ')', w "string", .sign '{', w "switch", w "e", .sign '{'] ++
       (syms.flatMap (fun s => [w "case", .word (symbolGoName nm (d.goName nm) s), .sign ':', w "return", .text (bytesOf s), .sign ';']) ++
       [.sign '}', .sign ';', w "return", .text (bytesOf "unknown".toList), .sign ';', .sign '}'])) ++ [.sign ';'])) (by simp only [List.append_assoc, List.cons_append, List.nil_append]))) (by unfold stringText; ends) (names_one ?_ rfl)
    have hl : ∀ d', walk (d' + 1) (syms.flatMap (fun s => [w "case", .word (symbolGoName nm (d.goName nm) s), .sign ':', w "return", .text (bytesOf s), .sign ';'])) = some (d' + 1) :=
      within_flatMap (fun s _ d => by brackets [])
    brackets [hl]
  have hval : Part (valueText nm print (d.goName nm) dv syms) [valueName (d.goName nm)] := by
    have hl : ∀ d', walk (d' + 1) (syms.flatMap (fun s => [w "case", .text (bytesOf s), .sign ':', w "return", .word (symbolGoName nm (d.goName nm) s), .sign ',', w "nil", .sign ';'])) = some (d' + 1) :=
      within_flatMap (fun s _ d => by brackets [])
    have h := enum_values nm print hp d syms dv hd hs hv
    generalize hq : (if dv = [] then [w "return", .sign '-', w "1", .sign ',', w "fmt", .sign '.', w "Errorf", .sign '(',
            .text (bytesOf ("invalid value for ".toList ++ d.goName nm ++ ": '%s'".toList)), .sign ',', w "raw", .sign ')', .sign ';']
          else [w "return", .word (symbolGoName nm (d.goName nm) dv), .sign ',', w "nil", .sign ';']) = us at h
    have hu : ∀ d, walk (d + 1) us = some (d + 1) := by
      intro d; rw [← hq]; split <;> brackets []
    refine part_tokens (h.trans (congrArg some (a₂ := ([w "func", .word (valueName (d.goName nm)), .sign '(', w "raw", w "string", .sign ')', .sign '(', w "r",
        .word (d.goName nm), .sign ',', w "err", w "error", .sign ')', .sign '{', w "switch", w "raw", .sign '{'] ++
       (syms.flatMap (fun s => [w "case", .text (bytesOf s), .sign ':', w "return", .word (symbolGoName nm (d.goName nm) s), .sign ',', w "nil", .sign ';']) ++
       ([.sign '}', .sign ';'] ++ (us ++ [.sign '}'])))) ++ [.sign ';']) (by simp only [List.append_assoc, List.cons_append, List.nil_append]; rfl))) (by unfold valueText; ends) (names_one ?_ rfl)
    brackets [hl, hu]
  refine parts_append (.cons (part_imports (by decide +kernel)) (.cons part_used (.cons hconst (.cons hstr (.cons (func_part hw (by unfold enumCode; ends) rfl) (.cons hval
    (.cons (part_tokens (enumMarshal_tokens hx) (by unfold enumMarshalText; ends) (marshal_names _ _ _))
    (.cons (part_tokens (enumUnmarshal_tokens hx) (by unfold enumUnmarshalText; ends) (unmarshal_names _ _ (by intro s hs; revert s; simp [enumUnmarshal, PlainRead])))
    (.cons (part_tokens (tokens_wrapper (ty := .named (d.goName nm)) (wrapper_exported hx) (phrase_exported hx)) (by unfold wrapperDecl; ends) (struct_names _ _)) .nil))))))))) ?_
  exact texts_parts (texts_enum (wrapper_exported hx) hx) (enum_lines _ _)

/-! ### Unions -/

/-- The constants of a union: one for each member except for the first null. -/
def unionConsts (nm : Namer) (n : NS) (name : Str) (ts : List PTy) : List Str :=
  (((ts.map fun t => unionEnumType name ++ t.goName nm n).zipIdx).filter fun c => decide (some c.2 ≠ ts.findIdx? nullTy)).map (·.1)

theorem unmarshal_plain (nm : Namer) (n : NS) (type : Str) (ts : List PTy) : ∀ s ∈ unionUnmarshal nm n type ts, PlainRead s := by
  have h : ∀ (null : Option Nat) (ts : List PTy) (i : Nat), ∀ s ∈ memberReads nm n null i ts, PlainRead s := by
    intro null ts
    induction ts with
    | nil => intro i s hs; cases hs
    | cons t ts ih =>
      intro i s hs
      rw [memberReads] at hs
      simp only [List.mem_append, List.mem_cons] at hs
      rcases hs with hs | hs
      · split at hs
        · cases hs
        · simp only [List.mem_cons, List.not_mem_nil, or_false] at hs
          subst hs
          trivial
      · exact ih _ s hs
  intro s hs
  unfold unionUnmarshal at hs
  simp only [List.mem_append, List.mem_cons, List.not_mem_nil, or_false] at hs
  rcases hs with (rfl | rfl | rfl) | hs | rfl
  all_goals first | trivial | exact h _ _ _ s hs

theorem union_parts (nm : Namer) (n : NS) {print : Char → Bool} (hp : Printing print) (schema : List Byte) {name : Str} {ts : List PTy} {d : List Json}
    (h : NamedTy n (.union name ts d)) :
    Parts (unionFile nm n print schema ((PTy.union name ts d).goName nm n) ((PTy.union name ts d).goType nm n) ts)
      (([[], unionEnumType ((PTy.union name ts d).goName nm n) :: unionConsts nm n ((PTy.union name ts d).goName nm n) ts, [(PTy.union name ts d).goName nm n],
        [writeName ((PTy.union name ts d).goName nm n)], [newName ((PTy.union name ts d).goName nm n)], [], ["Deserialize".toList ++ (PTy.union name ts d).goName nm n],
        ["Deserialize".toList ++ ((PTy.union name ts d).goName nm n ++ "FromSchema".toList)], []] ++
        (unionMethodTexts nm n ((PTy.union name ts d).goName nm n) ((PTy.union name ts d).goType nm n) ts).map fun _ => []) ++ [[], []]) := by
  have hx := goName_exported nm n _ h
  have ht := phrase_type nm n h
  have hser : Part (serializeText ((PTy.union name ts d).goName nm n) ((PTy.union name ts d).goType nm n)) [] :=
    part_tokens (serialize_text nm n _ h) (by unfold serializeText; ends) (func_names (serializeMethod _ _))
  refine parts_append (parts_append (.cons (part_imports (by decide +kernel)) (.cons (part_tokens (union_constants nm n name ts d h) (by unfold unionConstText; ends) (enum_names _ _ _))
    (.cons (part_tokens (union_declaration nm n name ts d h) (by unfold unionStructText; ends) (struct_names _ _))
    (.cons (func_part (writer_text nm n h (by simp) rfl rfl) (by unfold unionCode; ends) rfl) (.cons (part_unionNew hx ht ts) (.cons hser
    (.cons (part_unionDecode hx ht ts) (.cons (part_unionDecodeFrom hx ht ts)
    (.cons (part_tokens (union_schema_constant nm n print hp name ts d h schema) (by unfold schemaText; ends) (constMethod_names _ (level_ty _) _ _)) .nil)))))))))
    (texts_parts (texts_union nm n h) (union_lines _ _ _ _ _)))
    (.cons (part_tokens (unionMarshal_tokens nm n h) (by unfold unionMarshalText; ends) (marshal_names _ _ _))
    (.cons (part_tokens (unionUnmarshal_tokens nm n h) (by unfold unionUnmarshalText; ends) (unmarshal_names _ _ (unmarshal_plain nm n _ ts))) .nil))

/-! ### Records -/

/-- Where a default names an enum's symbol, the constant's name is one. -/
def ReadableDefaults (nm : Namer) (n : NS) (k : Nat) (fs : List PField) : Prop := ∀ f ∈ fs, ∀ L, dfltSts nm n k f = .ok L → Readable L

theorem readable_reads {L : List Spec.GoJ.USt} (h : ∀ u ∈ L, ∀ s ∈ readSts u, s.Readable) : UReadable L := by
  intro u hu
  cases u with
  | field f o => cases o with
    | sets l => exact h _ hu
    | fail m => trivial
  | _ => trivial

theorem plain_reads {L : List Spec.GoJ.USt} (h : ∀ u ∈ L, ∀ s ∈ readSts u, PlainNumber s) : ∀ u ∈ L, PlainRead u := by
  intro u hu
  cases u with
  | field f o => cases o with
    | sets l => exact h _ hu
    | fail m => trivial
  | _ => trivial

section
variable {nm : Namer} {n : NS} {print : Char → Bool} {k : Nat} {fs : List PField} {name s : Str}

theorem part_constructor (hp : Printing print) (hn : LegalFields n) (hname : Exported name) (hf : ∀ f ∈ fs, LegalName f.name ∧ LetterFirst f.name ∧ NamedTy n f.ty)
    (hd : ReadableDefaults nm n k fs) (h : constructorText nm n print k name fs = .ok s) : Part s [newName name] := by
  have ht := constructor_tokens nm hp hn k hname hf
  rw [h] at ht
  cases hL : newSts nm n k fs with
  | error e => rw [hL] at ht; exact ht.elim
  | ok L =>
    rw [hL] at ht
    refine part_tokens (ht (all_new local_readable hd hL)) ?_ (constructor_names name (all_new local_number (fun f _ L hL => dflt_numbers hL) hL))
    unfold constructorText at h
    cases hl : freshTexts nm n print k fs with
    | error e => rw [hl] at h; cases h
    | ok l => rw [hl] at h; cases h; ends

theorem part_setDefault (hp : Printing print) (hn : LegalFields n) (hname : Exported name) (hf : ∀ f ∈ fs, LegalName f.name ∧ LetterFirst f.name ∧ NamedTy n f.ty)
    (hd : ReadableDefaults nm n k fs) (h : setDefaultText nm n print k name fs = .ok s) : Part s [] := by
  have ht := setDefault_tokens nm hp hn k hname hf
  rw [h] at ht
  cases hL : setCases nm n k 0 fs with
  | error e => rw [hL] at ht; exact ht.elim
  | ok L =>
    rw [hL] at ht
    refine part_tokens (ht (all_cases local_readable hd hL)) ?_ (setDefault_names name (all_cases local_number (fun f _ L hL => dflt_numbers hL) hL))
    unfold setDefaultText at h
    cases hl : setDefaultTexts nm n print k 0 fs with
    | error e => rw [hl] at h; cases h
    | ok l => rw [hl] at h; cases h; ends

theorem part_unmarshal (hp : Printing print) (hn : LegalFields n) (hname : Exported name) (hf : ∀ f ∈ fs, LegalName f.name ∧ LetterFirst f.name ∧ NamedTy n f.ty)
    (hd : ReadableDefaults nm n k fs) (h : recordUnmarshalText nm n print k name fs = .ok s) : Part s [] := by
  have ht := recordUnmarshal_tokens nm hp hn k hname hf
  rw [h] at ht
  cases hL : recordUnmarshal nm n k fs with
  | error e => rw [hL] at ht; exact ht.elim
  | ok L =>
    rw [hL] at ht
    refine part_tokens (ht (readable_reads (all_unmarshal local_readable hd hL))) ?_
      (unmarshal_names _ _ (plain_reads (all_unmarshal local_number (fun f _ L hL => dflt_numbers hL) hL)))
    unfold recordUnmarshalText at h
    cases hl : fieldReadTexts nm n print k fs with
    | error e => rw [hl] at h; cases h
    | ok l => rw [hl] at h; cases h; ends
end

theorem part_method {s : Str} {m : Spec.GoT.Method} (h : Writes false s m.toks false) (hl : Line s) : Part s [] := part_writes h hl (method_names m)

theorem record_parts (nm : Namer) {n : NS} {print : Char → Bool} (hp : Printing print) (hn : LegalFields n) {k : Nat} (schema fp : List Byte) {d : PDef} (hdot : Dotted d.name.str)
    {fs : List PField} {doc : Str} (hk : d.kind = .record fs doc) (hdoc : ∀ c ∈ doc, forbidden c = false) (hf : ∀ f ∈ fs, Plainly n f)
    (hd : ReadableDefaults nm n k fs) {l : List Str} (hl : recordFile nm n print k schema fp d fs doc = .ok l) :
    Parts l [[], [], [d.goName nm], [d.goName nm ++ "AvroCRC64Fingerprint".toList], [newName (d.goName nm)], ["Deserialize".toList ++ d.goName nm],
      ["Deserialize".toList ++ (d.goName nm ++ "FromSchema".toList)], [writeName (d.goName nm)], [], [], [], [], [], [], [], [], [], [], [], [], [], [], [], [], [], [], [], [], []] := by
  have hx : Exported (d.goName nm) := publicName_exported nm hdot
  have hf' : ∀ f ∈ fs, LegalName f.name ∧ LetterFirst f.name ∧ NamedTy n f.ty := fun f h => ⟨(hf f h).name, (hf f h).letter, (hf f h).ty⟩
  have hw := definition_text nm n d hdot (by intro fs' doc' e; rw [hk] at e; cases e; exact hf')
  rw [PDef.writerText, PDef.writer, hk] at hw
  have hT : Phrase (d.goName nm) (GoTy.named (d.goName nm)).toks := phrase_exported hx
  have hser : Part (serializeText (d.goName nm) (d.goName nm)) [] :=
    part_tokens (us := (serializeMethod (d.goName nm) (.named (d.goName nm))).toks) (tokens_of (clean_serialize hx (clean_exported hx)) (toks_serialize hx (types_named hx))) (by unfold serializeText; ends) (func_names (serializeMethod _ _))
  simp only [recordFile] at hl
  cases h1 : constructorText nm n print k (d.goName nm) fs with
  | error e => rw [h1] at hl; cases hl
  | ok new =>
    cases h2 : setDefaultText nm n print k (d.goName nm) fs with
    | error e => rw [h1, h2] at hl; cases hl
    | ok dflt =>
      cases h3 : recordUnmarshalText nm n print k (d.goName nm) fs with
      | error e => rw [h1, h2, h3] at hl; cases hl
      | ok um =>
        rw [h1, h2, h3] at hl
        cases hl
        exact .cons (part_imports (by decide +kernel)) (.cons part_used
          (.cons (part_tokens (struct_declaration_partial nm n print hp d fs doc hk hdot hdoc hf) (by unfold structText; ends) (struct_names _ _))
          (.cons (part_tokens (fingerprint_constant nm print hp d hdot fp) (by unfold fingerprintText; ends) (const_names _ _))
          (.cons (part_constructor hp hn hx hf' hd h1) (.cons (part_recordDecode hx) (.cons (part_recordDecodeFrom hx)
          (.cons (func_part hw (by unfold recordCode; ends) rfl) (.cons hser
          (.cons (part_tokens (schema_constant nm print hp d hdot schema) (by unfold schemaText; ends) (constMethod_names _ (fun _ => rfl) _ _))
          (.cons (part_tokens (schemaName_constant nm print hp d hdot) (by unfold schemaNameText; ends) (constMethod_names _ (fun _ => rfl) _ _))
          (.cons (part_method (writes_boolean hT) (line_stub _ _)) (.cons (part_method (writes_int hT) (line_stub _ _)) (.cons (part_method (writes_long hT) (line_stub _ _))
          (.cons (part_method (writes_float hT) (line_stub _ _)) (.cons (part_method (writes_double hT) (line_stub _ _)) (.cons (part_method (writes_bytes hT) (line_stub _ _))
          (.cons (part_method (writes_string hT) (line_stub _ _)) (.cons (part_method (writes_unionElem hT) (line_stub _ _))
          (.cons (part_method (writes_recordGet nm n hx fs hf') (line_recordGet _ _ _ _)) (.cons (part_setDefault hp hn hx hf' hd h2)
          (.cons (part_method (writes_recordNull nm n hx fs hf') (line_recordNull _ _ _)) (.cons (part_method (writes_line (writes_appendMap hT)) (line_append (line_stub _ _)))
          (.cons (part_method (writes_appendArray hT) (line_stub _ _)) (.cons (part_method (writes_hint hT) (line_stub _ _)) (.cons (part_method (writes_finalize hT) (line_finalize _))
          (.cons (part_fingerprintMethod hx)
          (.cons (part_tokens (recordMarshal_tokens nm hp hx fun f h => ⟨(hf f h).name, (hf f h).letter⟩) (by unfold recordMarshalText; ends) (marshal_names _ _ _))
          (.cons (part_unmarshal hp hn hx hf' hd h3) .nil))))))))))))))))))))))))))))

end Verif
