import Verif.Gen.ImportsProof
import Verif.Props.Declared
/-
C105: generated files import no package that they do not use, and none twice; Go refuses files that do.
-/
set_option autoImplicit false
namespace Verif.Props
open Verif Spec Spec.Go

/-- What is imported from this module. -/
def ours (s : String) : String := "github.com/actgardner/gogen-avro/v10/" ++ s

/-- The packages that a file imports. -/
def importsOf : Body → List String
  | .ty (.prim _ _) => ["encoding/json", ours "vm/types", ours "util"]
  | .ty (.array _ _) => ["io", ours "vm/types", ours "vm"]
  | .ty (.map _ _) => ["io", ours "vm/types", ours "vm"]
  | .ty (.union _ _ _) => ["encoding/json", "fmt", "io", ours "vm", ours "compiler", ours "vm/types"]
  | .ty (.ref _) => []
  | .defn d => match d.kind with
    | .record _ _ => ["encoding/json", "fmt", "io", ours "vm/types", ours "vm", ours "compiler"]
    | .enum _ _ _ => ["encoding/json", "fmt", "io", ours "vm/types", ours "vm"]
    | .fixed _ => ["io", "encoding/json", ours "vm/types", ours "util"]
  | .container _ => ["io", ours "container", ours "vm", ours "compiler"]

/-- The file imports these packages, has no two of one name, and refers to each. -/
structure ImportsUsed (us : List Tok) (paths : List String) : Prop where
  imports : importPaths us = paths.map fun p => bytesOf p.toList
  apart : ((importPaths us).map lastPart).Nodup
  used : ∀ v ∈ importPaths us, ∃ x, bytesOf x = lastPart v ∧ Refers us x

theorem used_of {us : List Tok} {paths : List String} {xs : List Str} (h : importPaths us = paths.map fun p => bytesOf p.toList)
    (hn : ((paths.map fun p => bytesOf p.toList).map lastPart) = xs.map bytesOf) (hd : (xs.map bytesOf).Nodup) (hr : ∀ x ∈ xs, Refers us x) : ImportsUsed us paths := by
  refine ⟨h, ?_, ?_⟩
  · rw [h, hn]; exact hd
  · intro v hv
    rw [h] at hv
    have := List.mem_map_of_mem (f := lastPart) hv
    rw [hn] at this
    obtain ⟨x, hx, e⟩ := List.mem_map.1 this
    exact ⟨x, e, hr x hx⟩

theorem texts_mem : ∀ {ss : List Str} {ms : List Spec.GoT.Method}, TextsOf ss ms → ∀ {s : Str}, s ∈ ss → ∃ m ∈ ms, tokens s = some m.toks
  | s :: ss, m :: ms, h, t, ht => by
    rcases List.mem_cons.1 ht with rfl | ht
    · exact ⟨m, by simp, h.1⟩
    · obtain ⟨m', hm, e⟩ := texts_mem h.2 ht
      exact ⟨m', by simp [hm], e⟩

theorem container_imports {name : Str} (h : Exported name) {us : List Tok} (hu : tokens (cat (containerFile name)) = some us) :
    ImportsUsed us ["io", ours "container", ours "vm", ours "compiler"] := by
  have hp := container_parts h
  refine used_of (xs := ["io".toList, "container".toList, "vm".toList, "compiler".toList]) ((parts_imports hp (by decide +kernel) hu).trans (by decide +kernel)) (by decide +kernel) (by decide +kernel) ?_
  have h1 : Refers us "io".toList :=
    refers_part hp (s := newReaderText name) (by simp [containerFile]) (writes_tokens (writes_newReader h)) (refers_params (f := newReaderFn name) rfl) hu
  have h2 : Refers us "container".toList :=
    refers_part hp (s := newReaderText name) (by simp [containerFile]) (writes_tokens (writes_newReader h)) (refers_stmt (List.mem_cons_self ..) (refers_openFile _ _)) hu
  have h3 : Refers us "vm".toList :=
    refers_part hp (s := readText name) (by simp [containerFile]) (writes_tokens (writes_readRecord h)) (refers_stmt (List.mem_cons_of_mem _ (List.mem_cons_self ..)) (refers_eval _ _ _ _ _)) hu
  have h4 : Refers us "compiler".toList :=
    refers_part hp (s := newReaderText name) (by simp [containerFile]) (writes_tokens (writes_newReader h))
      (refers_stmt (List.mem_cons_of_mem _ (List.mem_cons_of_mem _ (List.mem_cons_of_mem _ (List.mem_cons_self ..)))) (refers_compile _ _ _)) hu
  intro x hx
  simp only [List.mem_cons, List.not_mem_nil, or_false] at hx
  rcases hx with rfl | rfl | rfl | rfl <;> assumption

theorem array_imports (nm : Namer) (n : NS) {t : PTy} {d : Json} (h : NamedTy n (.array t d)) {us : List Tok}
    (hu : tokens (cat (arrayFile nm n ((PTy.array t d).goName nm n) ((PTy.array t d).goType nm n) t)) = some us) : ImportsUsed us ["io", ours "vm/types", ours "vm"] := by
  have hp := array_parts nm n h
  have hx := goName_exported nm n _ h
  refine used_of (xs := ["io".toList, "types".toList, "vm".toList]) ((parts_imports hp (by decide +kernel) hu).trans (by decide +kernel)) (by decide +kernel) (by decide +kernel) ?_
  have hw := writer_text nm n h (by simp) rfl rfl
  have hm : arrayCode ((PTy.array t d).goName nm n) ((PTy.array t d).goType nm n) (t.serializerText nm n) ∈ arrayFile nm n ((PTy.array t d).goName nm n) ((PTy.array t d).goType nm n) t := by
    simp [arrayFile]
  have h1 : Refers us "io".toList := refers_part hp hm hw (refers_func (p := ("w".toList, .of "io".toList "Writer".toList)) (by simp [arrayFunc, writeFunc]) (refers_writer _ _ _)) hu
  have h2 : Refers us "types".toList :=
    refers_part hp (s := appendMapText ((PTy.array t d).goName nm n ++ "Wrapper".toList)) (by simp [arrayFile, arrayMethodTexts])
      (writes_tokens (writes_appendMap (ty := .named _) (phrase_exported (wrapper_exported hx)))) (refers_method _ rfl) hu
  have h3 : Refers us "vm".toList := refers_part hp hm hw (refers_array _ _ _) hu
  intro x hx
  simp only [List.mem_cons, List.not_mem_nil, or_false] at hx
  rcases hx with rfl | rfl | rfl <;> assumption

theorem map_imports (nm : Namer) (n : NS) {t : PTy} {d : Json} (h : NamedTy n (.map t d)) {us : List Tok}
    (hu : tokens (cat (mapFile nm n ((PTy.map t d).goName nm n) ((PTy.map t d).goType nm n) t)) = some us) : ImportsUsed us ["io", ours "vm/types", ours "vm"] := by
  have hp := map_parts nm n h
  have hx := goName_exported nm n _ h
  refine used_of (xs := ["io".toList, "types".toList, "vm".toList]) ((parts_imports hp (by decide +kernel) hu).trans (by decide +kernel)) (by decide +kernel) (by decide +kernel) ?_
  have hw := writer_text nm n h (by simp) rfl rfl
  have hm : mapCode ((PTy.map t d).goName nm n) ((PTy.map t d).goType nm n) (t.serializerText nm n) ∈ mapFile nm n ((PTy.map t d).goName nm n) ((PTy.map t d).goType nm n) t := by
    simp [mapFile]
  have h1 : Refers us "io".toList := refers_part hp hm hw (refers_func (p := ("w".toList, .of "io".toList "Writer".toList)) (by simp [mapFunc, writeFunc]) (refers_writer _ _ _)) hu
  have h2 : Refers us "types".toList :=
    refers_part hp (s := "\n".toList ++ appendArrayText ("*".toList ++ ((PTy.map t d).goName nm n ++ "Wrapper".toList))) (by simp [mapFile, mapMethodTexts])
      (writes_tokens (writes_line (writes_appendArray (ty := .pointer (.named _)) (phrase_pointer (wrapper_exported hx))))) (refers_method _ rfl) hu
  have h3 : Refers us "vm".toList := refers_part hp hm hw (refers_map _ _ _) hu
  intro x hx
  simp only [List.mem_cons, List.not_mem_nil, or_false] at hx
  rcases hx with rfl | rfl | rfl <;> assumption

theorem fixed_imports (nm : Namer) (n : NS) {d : PDef} (hd : Dotted d.name.str) {size : Int} (hk : d.kind = .fixed size) {us : List Tok}
    (hu : tokens (cat (fixedFile (d.goName nm) size.toNat)) = some us) : ImportsUsed us ["io", "encoding/json", ours "vm/types", ours "util"] := by
  have hp := fixed_parts nm n hd hk
  have hx : Exported (d.goName nm) := publicName_exported nm hd
  have hw := definition_text nm n d hd (by intro fs doc e; rw [hk] at e; cases e)
  rw [PDef.writerText, PDef.writer, hk] at hw
  refine used_of (xs := ["io".toList, "json".toList, "types".toList, "util".toList]) ((parts_imports hp (by decide +kernel) hu).trans (by decide +kernel)) (by decide +kernel) (by decide +kernel) ?_
  have h1 : Refers us "io".toList :=
    refers_part hp (s := fixedCode (d.goName nm)) (by simp [fixedFile]) hw (refers_func (p := ("w".toList, .of "io".toList "Writer".toList)) (by simp [fixedFunc, writeFunc]) (refers_writer _ _ _)) hu
  have h2 : Refers us "json".toList :=
    refers_part hp (s := fixedUnmarshalText (d.goName nm)) (by simp [fixedFile]) (fixedUnmarshal_tokens hx)
      (refers_unmarshal (List.mem_cons_of_mem _ (List.mem_cons_self ..)) (refers_read _)) hu
  have h3 : Refers us "types".toList :=
    refers_part hp (s := appendMapText (d.goName nm ++ "Wrapper".toList)) (by simp [fixedFile, fixedMethodTexts])
      (writes_tokens (writes_appendMap (ty := .named _) (phrase_exported (wrapper_exported hx)))) (refers_method _ rfl) hu
  have h4 : Refers us "util".toList :=
    refers_part hp (s := fixedMarshalText (d.goName nm)) (by simp [fixedFile]) (fixedMarshal_tokens hx) (refers_marshal (List.mem_cons_self ..) (refers_retBytes _)) hu
  intro x hx
  simp only [List.mem_cons, List.not_mem_nil, or_false] at hx
  rcases hx with rfl | rfl | rfl | rfl <;> assumption

theorem enum_imports (nm : Namer) (n : NS) {print : Char → Bool} (hpr : Printing print) {d : PDef} (hd : Dotted d.name.str) {syms : List Str} {doc dv : Str}
    (hk : d.kind = .enum syms doc dv) (hdoc : ∀ c ∈ doc, forbidden c = false) (hs : ∀ s ∈ syms, LegalName s) (hv : dv = [] ∨ LegalName dv) {us : List Tok}
    (hu : tokens (cat (enumFile nm print (d.goName nm) doc dv syms)) = some us) : ImportsUsed us ["encoding/json", "fmt", "io", ours "vm/types", ours "vm"] := by
  have hp := enum_parts nm n hpr hd hk hdoc hs hv
  have hx : Exported (d.goName nm) := publicName_exported nm hd
  have hw := definition_text nm n d hd (by intro fs doc e; rw [hk] at e; cases e)
  rw [PDef.writerText, PDef.writer, hk] at hw
  refine used_of (xs := ["json".toList, "fmt".toList, "io".toList, "types".toList, "vm".toList]) ((parts_imports hp (by decide +kernel) hu).trans (by decide +kernel)) (by decide +kernel)
    (by decide +kernel) ?_
  have hm : enumCode (d.goName nm) ∈ enumFile nm print (d.goName nm) doc dv syms := by simp [enumFile]
  have h1 : Refers us "json".toList :=
    refers_part hp (s := enumMarshalText (d.goName nm)) (by simp [enumFile]) (enumMarshal_tokens hx) (refers_marshal (List.mem_cons_self ..) refers_retString) hu
  have h2 : Refers us "fmt".toList := refers_part hp (s := usedText) (by simp [enumFile]) (by decide +kernel) refers_used hu
  have h3 : Refers us "io".toList := refers_part hp hm hw (refers_func (p := ("w".toList, .of "io".toList "Writer".toList)) (by simp [enumFunc, writeFunc]) (refers_writer _ _ _)) hu
  have h4 : Refers us "types".toList := by
    have ht := texts_enum (wrapper_exported hx) hx
    exact refers_part hp (s := enumStubText (d.goName nm ++ "Wrapper".toList) ") Get(i int) types.Field {" "Unable to get field from int field") (by simp [enumFile, enumMethodTexts])
      ht.2.2.2.2.2.2.2.2.1 (refers_method _ rfl) hu
  have h5 : Refers us "vm".toList := refers_part hp hm hw (refers_enum _) hu
  intro x hx
  simp only [List.mem_cons, List.not_mem_nil, or_false] at hx
  rcases hx with rfl | rfl | rfl | rfl | rfl <;> assumption

theorem union_imports (nm : Namer) (n : NS) {print : Char → Bool} (hpr : Printing print) (schema : List Byte) {name : Str} {ts : List PTy} {d : List Json}
    (h : NamedTy n (.union name ts d)) {us : List Tok}
    (hu : tokens (cat (unionFile nm n print schema ((PTy.union name ts d).goName nm n) ((PTy.union name ts d).goType nm n) ts)) = some us) :
    ImportsUsed us ["encoding/json", "fmt", "io", ours "vm", ours "compiler", ours "vm/types"] := by
  have hp := union_parts nm n hpr schema h
  have hx := goName_exported nm n _ h
  have ht := phrase_type nm n h
  refine used_of (xs := ["json".toList, "fmt".toList, "io".toList, "vm".toList, "compiler".toList, "types".toList]) ((parts_imports hp (by decide +kernel) hu).trans (by decide +kernel))
    (by decide +kernel) (by decide +kernel) ?_
  have hd := writes_tokens (writes_unionDecode hx ht ts)
  have hm : unionDecodeText ((PTy.union name ts d).goName nm n) ((PTy.union name ts d).goType nm n) ts ∈
      unionFile nm n print schema ((PTy.union name ts d).goName nm n) ((PTy.union name ts d).goType nm n) ts := by simp [unionFile]
  have h1 : Refers us "json".toList :=
    refers_part hp (s := unionUnmarshalText nm n ((PTy.union name ts d).goType nm n) ts) (by simp [unionFile]) (unionUnmarshal_tokens nm n h)
      (refers_unmarshal (s := .readFields) (by simp [unionUnmarshal]) (refers_read _)) hu
  have h2 : Refers us "fmt".toList :=
    refers_part hp (s := unionMarshalText nm n ((PTy.union name ts d).goName nm n) ((PTy.union name ts d).goType nm n) ts) (by simp [unionFile]) (unionMarshal_tokens nm n h)
      (refers_marshal (s := .fail _) (by simp [unionMarshal]; rfl) (refers_failure _)) hu
  have h3 : Refers us "io".toList := refers_part hp hm hd (refers_params (f := unionDecode false _ _ _) rfl) hu
  have h4 : Refers us "vm".toList :=
    refers_part hp hm hd (refers_stmt (List.mem_cons_of_mem _ (List.mem_cons_of_mem _ (List.mem_cons_of_mem _ (List.mem_cons_self ..)))) (refers_eval _ _ _ _ _)) hu
  have h5 : Refers us "compiler".toList := refers_part hp hm hd (refers_stmt (List.mem_cons_of_mem _ (List.mem_cons_self ..)) (refers_compile _ _ _)) hu
  have h6 : Refers us "types".toList :=
    refers_part hp (s := appendMapText ((PTy.union name ts d).goType nm n)) (by simp [unionFile, unionMethodTexts])
      (writes_tokens (writes_appendMap ht)) (refers_method _ rfl) hu
  intro x hx
  simp only [List.mem_cons, List.not_mem_nil, or_false] at hx
  rcases hx with rfl | rfl | rfl | rfl | rfl | rfl <;> assumption

theorem record_imports (nm : Namer) {n : NS} {print : Char → Bool} (hpr : Printing print) (hn : LegalFields n) {k : Nat} (schema fp : List Byte) {d : PDef} (hdot : Dotted d.name.str)
    {fs : List PField} {doc : Str} (hk : d.kind = .record fs doc) (hdoc : ∀ c ∈ doc, forbidden c = false) (hf : ∀ f ∈ fs, Plainly n f)
    (hd : ReadableDefaults nm n k fs) {l : List Str} (hl : recordFile nm n print k schema fp d fs doc = .ok l) {us : List Tok} (hu : tokens (cat l) = some us) :
    ImportsUsed us ["encoding/json", "fmt", "io", ours "vm/types", ours "vm", ours "compiler"] := by
  have hp := record_parts nm hpr hn schema fp hdot hk hdoc hf hd hl
  have hx : Exported (d.goName nm) := publicName_exported nm hdot
  have hT : Phrase (d.goName nm) (GoTy.named (d.goName nm)).toks := phrase_exported hx
  have mem : ∃ r, l = importText recordImports :: r ∧ usedText ∈ l ∧ recordDecodeText (d.goName nm) ∈ l ∧ appendArrayText (d.goName nm) ∈ l ∧
      recordMarshalText nm print (d.goName nm) fs ∈ l := by
    simp only [recordFile] at hl
    cases h1 : constructorText nm n print k (d.goName nm) fs with
    | error e => rw [h1] at hl; cases hl
    | ok new =>
      cases h2 : setDefaultText nm n print k (d.goName nm) fs with
      | error e => rw [h1, h2] at hl; cases hl
      | ok dflt =>
        cases h3 : recordUnmarshalText nm n print k (d.goName nm) fs with
        | error e => rw [h1, h2, h3] at hl; cases hl
        | ok um =>
          rw [h1, h2, h3] at hl
          cases hl
          exact ⟨_, rfl, by simp, by simp, by simp, by simp⟩
  obtain ⟨r, e, m1, m2, m3, m4⟩ := mem
  refine used_of (xs := ["json".toList, "fmt".toList, "io".toList, "types".toList, "vm".toList, "compiler".toList])
    ((parts_imports (e ▸ hp) (by decide +kernel) (e ▸ hu)).trans (by decide +kernel)) (by decide +kernel) (by decide +kernel) ?_
  have hdec := writes_tokens (writes_recordDecode hx)
  have h1 : Refers us "json".toList :=
    refers_part hp m4 (recordMarshal_tokens nm hpr hx fun f h => ⟨(hf f h).name, (hf f h).letter⟩) (refers_marshal (s := .retOutput) (by simp [recordMarshal]) refers_retOutput) hu
  have h2 : Refers us "fmt".toList := refers_part hp m1 (by decide +kernel) refers_used hu
  have h3 : Refers us "io".toList := refers_part hp m2 hdec (refers_params (f := recordDecode false _) rfl) hu
  have h4 : Refers us "types".toList := refers_part hp m3 (writes_tokens (writes_appendArray hT)) (refers_method _ rfl) hu
  have h5 : Refers us "vm".toList :=
    refers_part hp m2 hdec (refers_stmt (List.mem_cons_of_mem _ (List.mem_cons_of_mem _ (List.mem_cons_of_mem _ (List.mem_cons_self ..)))) (refers_eval _ _ _ _ _)) hu
  have h6 : Refers us "compiler".toList := refers_part hp m2 hdec (refers_stmt (List.mem_cons_of_mem _ (List.mem_cons_self ..)) (refers_compile _ _ _)) hu
  intro x hx
  simp only [List.mem_cons, List.not_mem_nil, or_false] at hx
  rcases hx with rfl | rfl | rfl | rfl | rfl | rfl <;> assumption

theorem bytes_imports {us : List Tok} (hu : tokens (cat bytesFile) = some us) : ImportsUsed us ["encoding/json", ours "vm/types", ours "util"] := by
  have hp := bytes_parts
  refine used_of (xs := ["json".toList, "types".toList, "util".toList]) ((parts_imports hp (by decide +kernel) hu).trans (by decide +kernel)) (by decide +kernel) (by decide +kernel) ?_
  have h1 : Refers us "json".toList :=
    refers_part hp (s := bytesUnmarshalText) (by simp [bytesFile]) bytesUnmarshal_tokens (refers_unmarshal (s := .readString "s".toList) (by simp [bytesUnmarshal]) (refers_read _)) hu
  have h2 : Refers us "util".toList :=
    refers_part hp (s := bytesMarshalText) (by simp [bytesFile]) bytesMarshal_tokens (refers_marshal (List.mem_cons_self ..) (refers_retBytes _)) hu
  have h3 : Refers us "types".toList := by
    refine refers_part hp (s := bytesWrapperText) (by simp [bytesFile]) bytesWrapper_text (refers_right ?_) hu
    have : ((libMethods (some .bytes)).any fun m => decide (m.result = some (.of "types".toList "Field".toList))) = true := by decide +kernel
    obtain ⟨m, hm, e⟩ := List.any_eq_true.1 this
    exact refers_infix (refers_method m (of_decide_eq_true e)) (flatMap_infix hm)
  intro x hx
  simp only [List.mem_cons, List.not_mem_nil, or_false] at hx
  rcases hx with rfl | rfl | rfl <;> assumption

/-- C105: a generated file imports the packages of `importsOf`, no two of one name, and refers to each of them, whatever the schema is: a record without fields, a union of null alone.
Missing: that all packages that are referred to are imported; names, documentation and tags as in `file_declares_partial`. -/
theorem imports_used_partial (nm : Namer) (n : NS) (print : Char → Bool) (hp : Printing print) (hn : LegalFields n) (k : Nat) (schema : Body → List Byte) (b : Body)
    (hb : Legible nm n k b) (text : Str) (h : templateText nm n print k schema b = some text) :
    ∃ us, tokens text = some us ∧ ImportsUsed us (importsOf b) := by
  obtain ⟨us, hu, -⟩ := file_declares_partial nm n print hp hn k schema b hb text h
  refine ⟨us, hu, ?_⟩
  unfold templateText at h
  cases hl : fileDecls nm n print k schema b with
  | none => rw [hl] at h; cases h
  | some l =>
    rw [hl] at h
    cases h
    cases b with
    | ty t =>
      cases t with
      | prim p j =>
        simp only [fileDecls] at hl
        split at hl
        · cases hl; simp only [importsOf]; exact bytes_imports hu
        · cases hl
      | array t j => simp only [fileDecls, Option.some.injEq] at hl; subst hl; simp only [importsOf]; exact array_imports nm n (t := t) (d := j) hb hu
      | map t j => simp only [fileDecls, Option.some.injEq] at hl; subst hl; simp only [importsOf]; exact map_imports nm n (t := t) (d := j) hb hu
      | union s ts j => simp only [fileDecls, Option.some.injEq] at hl; subst hl; simp only [importsOf]; exact union_imports nm n hp (schema (.ty (.union s ts j))) (name := s) (ts := ts) (d := j) hb hu
      | ref q => cases hl
    | container d => simp only [fileDecls, Option.some.injEq] at hl; subst hl; simp only [importsOf]; exact container_imports (publicName_exported nm hb) hu
    | defn d =>
      obtain ⟨hd, hb⟩ := hb
      simp only [fileDecls] at hl
      cases hk : d.kind with
      | record fs doc =>
        simp only [hk] at hl hb
        simp only [importsOf, hk]
        split at hl
        · cases hl
        · split at hl
          · rename_i hr
            cases hl
            exact record_imports nm hp hn _ _ hd hk hb.1 hb.2.1 hb.2.2 hr hu
          · cases hl
      | enum syms doc dv =>
        simp only [hk] at hl hb
        simp only [importsOf, hk]
        cases hl
        exact enum_imports nm n hp hd hk hb.1 hb.2.1 hb.2.2 hu
      | fixed size =>
        simp only [hk] at hl
        simp only [importsOf, hk]
        cases hl
        exact fixed_imports nm n hd hk hu

/-- The conditions met by the four files of `shop`, all of which have a text. -/
example : ∀ f ∈ generate .simple true shop, ∃ text us, templateText .simple shop asciiPrint 4 (fun _ => []) f.2 = some text ∧ tokens text = some us ∧ ImportsUsed us (importsOf f.2) := by
  intro f hf
  have : ((generate .simple true shop).all fun f => (templateText .simple shop asciiPrint 4 (fun _ => []) f.2).isSome) = true := by decide +kernel
  obtain ⟨text, ht⟩ := Option.isSome_iff_exists.1 (List.all_eq_true.1 this f hf)
  obtain ⟨us, h1, h2⟩ := imports_used_partial .simple shop asciiPrint asciiPrint_printing shop_fields 4 (fun _ => []) f.2 (shop_legible 4 f hf) text ht
  exact ⟨text, us, ht, h1, h2⟩

/-- A union of null alone has no member to write, and still refers to `encoding/json` and `fmt`. -/
example : ((tokens (cat (unionFile .simple {} asciiPrint [] "UnionNull".toList "*UnionNull".toList [.prim .null (.str "null".toList)]))).map importPaths) =
    some (["encoding/json", "fmt", "io", ours "vm", ours "compiler", ours "vm/types"].map fun p => bytesOf p.toList) := by decide +kernel

/-! ### Two functions that are text only -/

/-- C104: the text of the constructor of a union is `func NewX() T { return X{} }`, with `&` if the union has null and `T` is a pointer. -/
theorem union_constructor_text (nm : Namer) (n : NS) {name : Str} {ts : List PTy} {d : List Json} (h : NamedTy n (.union name ts d)) :
    tokens (unionNewText ((PTy.union name ts d).goName nm n) ((PTy.union name ts d).goType nm n) ts) =
      some ([w "func", .word ("New".toList ++ (PTy.union name ts d).goName nm n), .sign '(', .sign ')'] ++ (goTypeOf nm n (.union name ts d)).toks ++
        [.sign '{', w "return"] ++ (if ts.any nullTy then [.sign '&'] else []) ++ [.word ((PTy.union name ts d).goName nm n), .sign '{', .sign '}', .sign ';', .sign '}', .sign ';']) := by
  have hx := goName_exported nm n _ h
  have ht := phrase_type nm n h
  have e : ts.any nullTy = (nullAt 0 ts).isSome := by
    rw [nullAt_zero, List.findIdx?_isSome]
  rw [e]
  unfold unionNewText
  generalize (nullAt 0 ts).isSome = c
  have tail := fun b => writes_phrase (b := b) (phrase_exported hx) (c := "{}\n} \n".toList) (by decide +kernel)
    (writes_last (b' := false) (us := [.sign '{', .sign '}', .sign ';', .sign '}', .sign ';']) (by decide +kernel))
  refine writes_tokens ?_
  cases c with
  | true =>
    refine writes_eq (lf (us := [w "func"]) (by decide +kernel) (writes_phrase (phrase_exported (new_exported hx)) (by decide +kernel)
      (lt (us := [.sign '(', .sign ')']) (by decide +kernel) (writes_phrase ht (by decide +kernel) (lt (us := [.sign '{', w "return"]) (by decide +kernel)
      (lf (us := [.sign '&']) (by decide +kernel) (tail false))))))) ?_
    simp [newName]
  | false =>
    refine writes_eq (lf (us := [w "func"]) (by decide +kernel) (writes_phrase (phrase_exported (new_exported hx)) (by decide +kernel)
      (lt (us := [.sign '(', .sign ')']) (by decide +kernel) (writes_phrase ht (by decide +kernel) (lt (us := [.sign '{', w "return"]) (by decide +kernel)
      (lt (c := []) (us := []) (by decide +kernel) (tail true))))))) ?_
    simp [newName]

/-- C91: the text of the method `AvroCRC64Fingerprint` of a record is `return []byte(XAvroCRC64Fingerprint)`; `fingerprint_constant` has the value of the constant. -/
theorem fingerprint_method_text {name : Str} (h : Exported name) : tokens (fingerprintMethodText name) =
    some [w "func", .sign '(', w "_", .word name, .sign ')', w "AvroCRC64Fingerprint", .sign '(', .sign ')', .sign '[', .sign ']', w "byte", .sign '{',
      w "return", .sign '[', .sign ']', w "byte", .sign '(', .word (name ++ "AvroCRC64Fingerprint".toList), .sign ')', .sign ';', .sign '}', .sign ';'] := by
  exact writes_tokens (writes_eq (lt (us := [w "func", .sign '(', w "_"]) (by decide +kernel) (writes_phrase (phrase_exported h) (by decide +kernel)
    (lf (us := [.sign ')', w "AvroCRC64Fingerprint", .sign '(', .sign ')', .sign '[', .sign ']', w "byte", .sign '{']) (by decide +kernel)
    (lf (us := [w "return", .sign '[', .sign ']', w "byte", .sign '(']) (by decide +kernel)
    (writes_phrase (phrase_exported (exported_append h (by decide +kernel))) (by decide +kernel)
    (writes_last (us := [.sign ')', .sign ';', .sign '}', .sign ';']) (by decide +kernel))))))) rfl)

example : NamedTy {} (.union [] [.prim .null (.str "null".toList), .prim .string (.str "string".toList)] []) ∧ Exported "Order".toList :=
  ⟨by simp only [NamedTy, NamedTys, true_or, and_self], by decide⟩

end Verif.Props
