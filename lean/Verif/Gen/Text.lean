import Verif.Gen.Names
import Verif.Go.Quote
/-
The text of generated declarations, as text/template makes it from the templates of
v10/generator/flat/templates: the struct of a record and the constants of its methods, the constants of an
enum, the constants and the struct of a union, the type of a fixed. `go/format`, which is run on the whole
file afterwards, is not modelled.
-/
namespace Verif

/-- `Doc`, v10/schema/record.go:137-139, enum.go:34-36, field.go:69-71. -/
def docText (doc : Str) : Str := doc.map fun c => if c = '\n' then ' ' else c

/-- `{{ if ne .Doc "" }}// {{ .Doc}}{{ end }}`, templates/record.go:16, 19 and enum.go:15. -/
def docLine (doc : Str) : Str := if docText doc = [] then [] else "// ".toList ++ docText doc

/-- The union has a null member: `nullIndex` is not -1, v10/schema/union.go:17-25. -/
def PTy.hasNull : List PTy → Bool
  | [] => false
  | .prim .null _ :: _ => true
  | _ :: ts => PTy.hasNull ts

/-- `GoType` of the primitive types, v10/schema/primitive.go:16-18 with the arguments of the constructors. -/
def Prim.goType : Prim → Str
  | .null => "*types.NullVal".toList
  | .bool => "bool".toList
  | .int => "int32".toList
  | .long => "int64".toList
  | .float => "float32".toList
  | .double => "float64".toList
  | .bytes => "Bytes".toList
  | .string => "string".toList

/-- `GoType`: primitive.go:16-18, array.go:29-31, map.go:29-31, union.go:53-58, reference.go:19-21, all in
v10/schema. -/
def PTy.goType (nm : Namer) (n : NS) : PTy → Str
  | .prim p _ => p.goType
  | .array t _ => "[]".toList ++ t.goType nm n
  | .map t _ => "map[string]".toList ++ t.goType nm n
  | .union name ts d => if PTy.hasNull ts then "*".toList ++ (PTy.union name ts d).goName nm n else (PTy.union name ts d).goName nm n
  | .ref q => (PTy.ref q).goName nm n

theorem goType_prim (nm : Namer) (n : NS) (p : Prim) (d : Json) : PTy.goType nm n (.prim p d) = p.goType := rfl
theorem goType_array (nm : Namer) (n : NS) (t : PTy) (d : Json) : PTy.goType nm n (.array t d) = "[]".toList ++ t.goType nm n := rfl
theorem goType_map (nm : Namer) (n : NS) (t : PTy) (d : Json) : PTy.goType nm n (.map t d) = "map[string]".toList ++ t.goType nm n := rfl
theorem goType_union (nm : Namer) (n : NS) (name : Str) (ts : List PTy) (d : List Json) : PTy.goType nm n (.union name ts d) =
    if PTy.hasNull ts then "*".toList ++ (PTy.union name ts d).goName nm n else (PTy.union name ts d).goName nm n := rfl
theorem goType_ref (nm : Namer) (n : NS) (q : QName) : PTy.goType nm n (.ref q) = (PTy.ref q).goName nm n := rfl

/-- `Field.Tags`, v10/schema/field.go:74-80. `print` is `strconv.IsPrint`. -/
def PField.tagText (print : Char → Bool) (f : PField) : Str :=
  if f.tags = [] then "json:".toList ++ quoted print (utf8 f.name) else f.tags ++ ' ' :: ("json:".toList ++ quoted print (utf8 f.name))

/-- One round of the loop of templates/record.go:18-26. The tags are never empty. -/
def PField.declText (nm : Namer) (n : NS) (print : Char → Bool) (f : PField) : Str :=
  docLine f.doc ++ ("\n\t".toList ++ (fieldGoName nm f.name ++ (" ".toList ++ (f.ty.goType nm n ++
    (" ".toList ++ ('`' :: (f.tagText print ++ '`' :: "\n\t".toList)))))))

/-- templates/record.go:16-27. -/
def structText (nm : Namer) (n : NS) (print : Char → Bool) (name doc : Str) (fs : List PField) : Str :=
  docLine doc ++ ("\ntype ".toList ++ (name ++ (" struct {\n".toList ++ (fs.flatMap (PField.declText nm n print) ++ "\n}\n".toList))))

/-- templates/record.go:28, with `definitionFingerprint`, lookup.go:41-50. -/
def fingerprintText (print : Char → Bool) (name : Str) (fp : List Byte) : Str :=
  "\nconst ".toList ++ ((name ++ "AvroCRC64Fingerprint".toList) ++ (" = ".toList ++ (quoted print fp ++ "\n".toList)))

/-- templates/record.go:83-85 and union.go:103-105, `Schema()`. `type` is the type of the receiver. -/
def schemaText (print : Char → Bool) (type : Str) (schema : List Byte) : Str :=
  "\nfunc (r ".toList ++ (type ++ (") Schema() string {\n\treturn ".toList ++ (quoted print schema ++ "\n}\n".toList)))

/-- templates/record.go:87-89, `SchemaName()`. -/
def schemaNameText (print : Char → Bool) (type : Str) (name : List Byte) : Str :=
  "\nfunc (r ".toList ++ (type ++ (") SchemaName() string {\n\treturn ".toList ++ (quoted print name ++ "\n}\n".toList)))

/-- The line of `MarshalJSON` that puts a member into the output, templates/record.go:164. -/
def marshalText (nm : Namer) (print : Char → Bool) (f : PField) : Str :=
  "output[".toList ++ (quoted print (utf8 f.name) ++ ("], err = json.Marshal(r.".toList ++ (fieldGoName nm f.name ++ ")\n".toList)))

/-- The loop of templates/enum.go:19-21. -/
def symbolTexts (nm : Namer) (type : Str) : Nat → List Str → Str
  | _, [] => []
  | i, s :: ss => symbolGoName nm type s ++ (" ".toList ++ (type ++ (" = ".toList ++ (Nat.toDigits 10 i ++ ("\n".toList ++
    symbolTexts nm type (i + 1) ss)))))

/-- templates/enum.go:15-22. -/
def enumText (nm : Namer) (type doc : Str) (syms : List Str) : Str :=
  docLine doc ++ ("  \ntype ".toList ++ (type ++ (" int32\n\nconst (\n".toList ++ (symbolTexts nm type 0 syms ++ ")\n".toList))))

/-- The loop of `String`, templates/enum.go:26-29. -/
def stringCases (nm : Namer) (print : Char → Bool) (type : Str) : List Str → Str
  | [] => []
  | s :: ss => "case ".toList ++ (symbolGoName nm type s ++ (":\n\t\treturn ".toList ++ (quoted print (utf8 s) ++ ("\n\t".toList ++
    stringCases nm print type ss))))

/-- `String`, templates/enum.go:24-32. -/
def stringText (nm : Namer) (print : Char → Bool) (type : Str) (syms : List Str) : Str :=
  "\nfunc (e ".toList ++ (type ++ (") String() string {\n\tswitch e {\n\t".toList ++ (stringCases nm print type syms ++
    ("}\n\treturn ".toList ++ ('"' :: ("unknown".toList ++ '"' :: "\n}\n".toList))))))

/-- The loop of `NewXValue`, templates/enum.go:40-43. -/
def valueCases (nm : Namer) (print : Char → Bool) (type : Str) : List Str → Str
  | [] => []
  | s :: ss => "case ".toList ++ (quoted print (utf8 s) ++ (":\n\t\treturn ".toList ++ (symbolGoName nm type s ++ (", nil\n".toList ++
    valueCases nm print type ss))))

/-- What `NewXValue` does with other strings, templates/enum.go:46-50. -/
def valueElse (nm : Namer) (type dflt : Str) : Str :=
  if dflt = [] then "\n\treturn -1, fmt.Errorf(".toList ++ ('"' :: (("invalid value for ".toList ++ type ++ ": '%s'".toList) ++
    '"' :: ", raw)\n".toList))
  else " \n\treturn ".toList ++ (symbolGoName nm type dflt ++ ", nil\n".toList)

/-- `NewXValue`, templates/enum.go:38-51. -/
def valueText (nm : Namer) (print : Char → Bool) (type dflt : Str) (syms : List Str) : Str :=
  "\nfunc ".toList ++ (("New".toList ++ type ++ "Value".toList) ++ ("(raw string) (r ".toList ++ (type ++
    (", err error) {\n\tswitch raw {\n".toList ++ (valueCases nm print type syms ++ ("}\n\n".toList ++ (valueElse nm type dflt ++
    "\n}\n".toList)))))))

/-- `UnionEnumType`, v10/schema/union.go:60-62. -/
def unionEnumType (name : Str) : Str := name ++ "TypeEnum".toList

/-- The loop of templates/union.go:17-21: `none` stands for the position of `NullIndex`, the first null. -/
def memberTexts (type : Str) : Nat → List (Option Str) → Str
  | _, [] => []
  | i, none :: ms => "\n".toList ++ memberTexts type (i + 1) ms
  | i, some m :: ms => (type ++ m) ++ (" ".toList ++ (type ++ (" = ".toList ++ (Nat.toDigits 10 i ++ ("\n        \n".toList ++
    memberTexts type (i + 1) ms)))))

/-- The names of the members, but for the first null. -/
def constNames (nm : Namer) (n : NS) : List PTy → List (Option Str)
  | [] => []
  | .prim .null _ :: ts => none :: ts.map fun t => some (t.goName nm n)
  | t :: ts => some (t.goName nm n) :: constNames nm n ts

/-- templates/union.go:15-22. -/
def unionConstText (nm : Namer) (n : NS) (name : Str) (ts : List PTy) : Str :=
  "\ntype ".toList ++ (unionEnumType name ++ (" int\nconst (\n".toList ++ (memberTexts (unionEnumType name) 0 (constNames nm n ts) ++
    ")\n".toList)))

/-- templates/union.go:24-29. -/
def unionStructText (nm : Namer) (n : NS) (name : Str) (ts : List PTy) : Str :=
  "\ntype ".toList ++ (name ++ (" struct {\n".toList ++ (ts.flatMap (fun t => t.goName nm n ++ (" ".toList ++ (t.goType nm n ++ "\n".toList))) ++
    ("UnionType ".toList ++ (unionEnumType name ++ "\n}\n".toList)))))

/-- The key of a member of a union as `UnmarshalJSON` looks for it, templates/union.go:179: put between
quotes as it is. -/
def unionKeyText (key : Str) : Str := "fields[".toList ++ ('"' :: (key ++ '"' :: "]\n".toList))

/-- templates/fixed.go:21. -/
def fixedText (type : Str) (size : Nat) : Str := "\ntype ".toList ++ (type ++ (" [".toList ++ (Nat.toDigits 10 size ++ "]byte\n".toList)))

end Verif
