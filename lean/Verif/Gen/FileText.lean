import Verif.Gen.JsonCode
import Verif.Gen.LibText
import Verif.Gen.Files
import Verif.Canonical.Form
/-
The whole text of generated files, as text/template makes it from v10/generator/flat/templates: the declarations of
Gen/Text, Gen/Code, Gen/MethodsText, Gen/DefaultText and Gen/JsonCode in the order of the templates, the import clauses, and the
functions by which a program starts: `DeserializeX`, `DeserializeXFromSchema`, `AvroCRC64Fingerprint` and the container
files. The package clause and the comment before it are added by `AddFile`, see Gen/Command.
-/
namespace Verif

/-! ### Import clauses -/

/-- The path of a package of the module, v10/go.mod:1. -/
def modulePath (p : String) : Str := cat ["github.com/actgardner/".toList, "gogen-avro/v10/".toList, p.toList]

/-- One line of an import clause. -/
def importLine (path : Str) : Str := cat ["\t".toList, inQuotes path, "\n".toList]

def importLines : List Str → Str
  | [] => []
  | p :: ps => cat [importLine p, importLines ps]

/-- An import clause. Empty lines between the packages are left out. -/
def importText (paths : List Str) : Str := cat ["\nimport (\n".toList, importLines paths, ")\n".toList]

/-- templates/record.go:5-11. -/
def recordImports : List Str := ["encoding/json".toList, "fmt".toList, "io".toList, modulePath "vm/types", modulePath "vm", modulePath "compiler"]

/-- templates/union.go:5-11. -/
def unionImports : List Str := ["encoding/json".toList, "fmt".toList, "io".toList, modulePath "vm", modulePath "compiler", modulePath "vm/types"]

/-- templates/array.go:5-8, map.go:5-7. -/
def itemImports : List Str := ["io".toList, modulePath "vm/types", modulePath "vm"]

/-- templates/enum.go:5-10. -/
def enumImports : List Str := ["encoding/json".toList, "fmt".toList, "io".toList, modulePath "vm/types", modulePath "vm"]

/-- templates/fixed.go:5-9. -/
def fixedImports : List Str := ["io".toList, "encoding/json".toList, modulePath "vm/types", modulePath "util"]

/-- templates/bytes.go:5-8. -/
def bytesImports : List Str := ["encoding/json".toList, modulePath "vm/types", modulePath "util"]

/-- templates/record_container.go:5-9. -/
def containerImports : List Str := ["io".toList, modulePath "container", modulePath "vm", modulePath "compiler"]

/-- templates/record.go:14, enum.go:13. -/
def usedText : Str := "\nvar _ = fmt.Printf\n\n".toList

/-! ### Functions that decode -/

/-- The first line of templates/record.go:45, union.go:67. -/
def decodeHead (name type : Str) : Str :=
  cat ["\nfunc ".toList, "Deserialize".toList ++ name, "(r io.Reader) (".toList, type, ", error) {\n".toList]

/-- The first line of templates/record.go:56, union.go:85. -/
def decodeFromHead (name type : Str) : Str :=
  cat ["\nfunc ".toList, "Deserialize".toList ++ (name ++ "FromSchema".toList), "(r io.Reader, schema string) (".toList, type, ", error) {\n".toList]

/-- templates/record.go:46, union.go:68, record_container.go:14, 30 and 44, with `ConstructorMethod`. -/
def newLine (x name : Str) : Str := cat ["\t".toList, x, " := ".toList, newName name, "()\n".toList]

/-- templates/record.go:47, union.go:69. -/
def compileOwnText : Str :=
  cat ["\tdeser, err := compiler.CompileSchemaBytes(".toList, "[]byte(t.Schema()), ".toList, "[]byte(t.Schema()))\n".toList]

/-- templates/record.go:59, union.go:87. -/
def compileGivenText : Str :=
  cat ["\tdeser, err := compiler.CompileSchemaBytes(".toList, "[]byte(schema), ".toList, "[]byte(t.Schema()))\n".toList]

/-- templates/record.go:48-50, union.go:70-72. -/
def giveUpText : Str := "\tif err != nil {\n\t\treturn t, err\n\t}\n".toList

/-- templates/record.go:52-53. -/
def evalText : Str := cat ["\n\terr = vm.Eval(r, deser, &t)\n".toList, "\treturn t, err\n}\n".toList]

/-- templates/record.go:45-54. -/
def recordDecodeText (name : Str) : Str := cat [decodeHead name name, newLine "t".toList name, compileOwnText, giveUpText, evalText]

/-- templates/record.go:56-66. -/
def recordDecodeFromText (name : Str) : Str :=
  cat [decodeFromHead name name, newLine "t".toList name, "\n".toList, compileGivenText, giveUpText, evalText]

/-- templates/union.go:74-82. -/
def unionEvalText (ts : List PTy) : Str :=
  cat ["\n\n".toList, if (nullAt 0 ts).isSome then "\terr = vm.Eval(r, deser, t)\n".toList else "\terr = vm.Eval(r, deser, &t)\n".toList, "\n".toList, giveUpText,
    "\treturn t, err\n}\n".toList]

/-- templates/union.go:67-83. -/
def unionDecodeText (name type : Str) (ts : List PTy) : Str :=
  cat [decodeHead name type, newLine "t".toList name, compileOwnText, giveUpText, unionEvalText ts]

/-- templates/union.go:85-101. -/
def unionDecodeFromText (name type : Str) (ts : List PTy) : Str :=
  cat [decodeFromHead name type, newLine "t".toList name, compileGivenText, giveUpText, unionEvalText ts]

/-- templates/union.go:53-61. -/
def unionNewText (name type : Str) (ts : List PTy) : Str :=
  cat ["\n\nfunc ".toList, newName name, "() ".toList, type, " {\n\treturn ".toList, if (nullAt 0 ts).isSome then "&".toList else [], name, "{}\n} \n".toList]

/-- templates/record.go:154-156. -/
def fingerprintMethodText (name : Str) : Str :=
  cat ["\n\nfunc (_ ".toList, name, ") AvroCRC64Fingerprint() []byte {\n".toList, "  return []byte(".toList, name ++ "AvroCRC64Fingerprint".toList, ")\n}\n".toList]

/-! ### Container files -/

/-- `RecordReaderTypeName`, v10/schema/record.go:91-93. -/
def readerName (name : Str) : Str := name ++ "Reader".toList

/-- templates/record_container.go:12-15. -/
def newWriterText (name : Str) : Str :=
  cat ["\nfunc ".toList, newName (name ++ "Writer".toList), "(writer io.Writer, codec container.Codec, ".toList, "recordsPerBlock int64) (*container.Writer, error) {\n".toList,
    newLine "str".toList name, "\treturn container.NewWriter(writer, codec, ".toList, "recordsPerBlock, str.Schema())\n}\n".toList]

/-- templates/record_container.go:17-21. -/
def readerStructText (name : Str) : Str :=
  cat ["\n// container reader\ntype ".toList, readerName name, " struct {\n\tr io.Reader\n\tp *vm.Program\n}\n".toList]

/-- templates/record_container.go:23-39. -/
def newReaderText (name : Str) : Str :=
  cat ["\nfunc ".toList, newName (readerName name), "(r io.Reader) (*".toList, readerName name, ", error){\n".toList,
    "\tcontainerReader, err := container.NewReader(r)\n".toList, "\tif err != nil {\n\t\treturn nil, err\n\t}\n\n".toList, newLine "t".toList name,
    "\tdeser, err := compiler.CompileSchemaBytes(".toList, "[]byte(containerReader.AvroContainerSchema()), ".toList, "[]byte(t.Schema()))\n".toList,
    "\tif err != nil {\n\t\treturn nil, err\n\t}\n\n".toList, "\treturn &".toList, readerName name, " {\n\t\tr: containerReader,\n\t\tp: deser,\n".toList, "\t}, nil\n}\n".toList]

/-- templates/record_container.go:41-45. -/
def readText (name : Str) : Str :=
  cat ["\nfunc (r ".toList, readerName name, ") Read() (".toList, name, ", error) {\n".toList, newLine "t".toList name,
    "        err := vm.Eval(r.r, r.p, &t)\n\treturn t, err\n}\n".toList]

/-! ### Files -/

/-- templates/record.go:4-211. `schema` is what `Schema` gives (v10/schema/record.go:160-171), `fp` the fingerprint. -/
def recordFile (nm : Namer) (n : NS) (print : Char → Bool) (k : Nat) (schema fp : List Byte) (d : PDef) (fs : List PField) (doc : Str) : Made (List Str) := do
  let name := d.goName nm
  let new ← constructorText nm n print k name fs
  let dflt ← setDefaultText nm n print k name fs
  let unmarshal ← recordUnmarshalText nm n print k name fs
  return [importText recordImports, usedText, structText nm n print name doc fs, fingerprintText print name fp, new, recordDecodeText name, recordDecodeFromText name,
    recordCode nm n name fs, serializeText name name, schemaText print name schema, schemaNameText print name (utf8 d.name.str), booleanText name, intText name, longText name,
    floatText name, doubleText name, bytesText name, stringStub name, unionElemText name, recordGetText nm n name fs, dflt, recordNullText nm name fs,
    "\n".toList ++ appendMapText name, appendArrayText name, stubText name ") HintSize(int) {", finalizeText name, fingerprintMethodText name,
    recordMarshalText nm print name fs, unmarshal]

/-- templates/union.go:4-187. -/
def unionFile (nm : Namer) (n : NS) (print : Char → Bool) (schema : List Byte) (name type : Str) (ts : List PTy) : List Str :=
  [importText unionImports, unionConstText nm n name ts, unionStructText nm n name ts, unionCode nm n name type ts, unionNewText name type ts, serializeText name type,
    unionDecodeText name type ts, unionDecodeFromText name type ts, schemaText print type schema] ++ unionMethodTexts nm n name type ts ++
  [unionMarshalText nm n name type ts, unionUnmarshalText nm n type ts]

/-- templates/array.go:4-67. -/
def arrayFile (nm : Namer) (n : NS) (name type : Str) (item : PTy) : List Str :=
  [importText itemImports, arrayCode name type (item.serializerText nm n), wrapperDecl (name ++ "Wrapper".toList) type] ++
  arrayMethodTexts nm n (name ++ "Wrapper".toList) type item

/-- templates/map.go:4-82. -/
def mapFile (nm : Namer) (n : NS) (name type : Str) (item : PTy) : List Str :=
  [importText itemImports, mapCode name type (item.serializerText nm n), mapWrapperDecl (name ++ "Wrapper".toList) (item.goType nm n)] ++
  mapMethodTexts nm n (name ++ "Wrapper".toList) item

/-- templates/enum.go:4-130. -/
def enumFile (nm : Namer) (print : Char → Bool) (name doc dflt : Str) (syms : List Str) : List Str :=
  [importText enumImports, usedText, enumText nm name doc syms, stringText nm print name syms, enumCode name, valueText nm print name dflt syms, enumMarshalText name, enumUnmarshalText name,
    wrapperDecl (name ++ "Wrapper".toList) name] ++ enumMethodTexts (name ++ "Wrapper".toList) name

/-- templates/fixed.go:4-54. -/
def fixedFile (name : Str) (size : Nat) : List Str :=
  [importText fixedImports, fixedCode name, wrapperDecl (name ++ "Wrapper".toList) name, fixedText name size, fixedUnmarshalText name, fixedMarshalText name] ++
  fixedMethodTexts (name ++ "Wrapper".toList)

/-- templates/bytes.go:4-87. -/
def bytesFile : List Str := [importText bytesImports, "\ntype Bytes []byte\n".toList, bytesUnmarshalText, bytesMarshalText, bytesWrapperText]

/-- templates/record_container.go:4-46. -/
def containerFile (name : Str) : List Str :=
  [importText containerImports, newWriterText name, readerStructText name, newReaderText name, readText name]

/-- `Template` and `Evaluate`, v10/generator/flat/templates/lookup.go:14-67, and `addRecordContainer`, generator.go:48-56: the
declarations of a file, or an error. `schema` is `json.Marshal` of the schema document (v10/schema/record.go:160-171,
union.go:162-180), `k` bounds the depth of defaults. A reference and the primitive types other than bytes have no template. -/
def fileDecls (nm : Namer) (n : NS) (print : Char → Bool) (k : Nat) (schema : Body → List Byte) : Body → Option (List Str)
  | .ty (.prim p _) => if p = .bytes then some bytesFile else none
  | .ty (.array t d) => some (arrayFile nm n ((PTy.array t d).goName nm n) ((PTy.array t d).goType nm n) t)
  | .ty (.map t d) => some (mapFile nm n ((PTy.map t d).goName nm n) ((PTy.map t d).goType nm n) t)
  | .ty (.union s ts d) => some (unionFile nm n print (schema (.ty (.union s ts d))) ((PTy.union s ts d).goName nm n) ((PTy.union s ts d).goType nm n) ts)
  | .ty (.ref _) => none
  | .defn d => match d.kind with
    | .record fs doc => match recordFingerprint ⟨n.env, .ref d.name⟩ with
      | none => none
      | some fp => match recordFile nm n print k (schema (.defn d)) fp d fs doc with
        | .ok l => some l
        | _ => none
    | .enum syms doc dv => some (enumFile nm print (d.goName nm) doc dv syms)
    | .fixed size => some (fixedFile (d.goName nm) size.toNat)
  | .container d => some (containerFile (d.goName nm))

/-- The text of a file behind its package clause. -/
def templateText (nm : Namer) (n : NS) (print : Char → Bool) (k : Nat) (schema : Body → List Byte) (b : Body) : Option Str :=
  (fileDecls nm n print k schema b).map cat

end Verif
