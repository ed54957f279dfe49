import Verif.Gen.Methods
import Verif.Gen.Text
/-
The text of the methods of generated targets, as text/template makes it from v10/generator/flat/templates. A
method's text begins after the end of the one before. Longer pieces are cut where it is convenient.
-/
namespace Verif

/-- Texts one after the other. -/
def cat : List Str → Str
  | [] => []
  | s :: l => s ++ cat l

/-- A text in double quotes, with no character that would need a backslash. -/
def inQuotes (s : Str) : Str := '"' :: (s ++ ['"'])

/-- `WrapperType` of the primitive types, as `Prim.wrapper`. -/
def Prim.wrapperText : Prim → Str
  | .null => []
  | .bool => "types.Boolean".toList
  | .int => "types.Int".toList
  | .long => "types.Long".toList
  | .float => "types.Float".toList
  | .double => "types.Double".toList
  | .bytes => "BytesWrapper".toList
  | .string => "types.String".toList

/-- `WrapperType`, as `PTy.wrapper`. -/
def PTy.wrapperText (nm : Namer) (n : NS) : PTy → Str
  | .prim p _ => p.wrapperText
  | .array t d => (PTy.array t d).goName nm n ++ "Wrapper".toList
  | .map t d => (PTy.map t d).goName nm n ++ "Wrapper".toList
  | .union _ ts _ => if PTy.hasNull ts then [] else "types.Record".toList
  | .ref q => match n.find q with
    | none => []
    | some d => match d.kind with
      | .record _ _ => "types.Record".toList
      | _ => d.goName nm ++ "Wrapper".toList

/-- `ConstructorMethod` of the type if it is `Constructable`, and else nothing: v10/schema/constructable.go:7-17,
array.go:55-57, map.go:55-57, union.go:156-158, record.go:76-78. -/
def PTy.ctorText (nm : Namer) (n : NS) : PTy → Str
  | .prim _ _ => []
  | .array t d => cat ["make(".toList, (PTy.array t d).goType nm n, ", 0)".toList]
  | .map t d => cat ["make(".toList, (PTy.map t d).goType nm n, ")".toList]
  | .union name ts d => cat ["New".toList ++ (PTy.union name ts d).goName nm n, "()".toList]
  | .ref q => match n.find q with
    | none => []
    | some d => match d.kind with
      | .record _ _ => cat ["New".toList ++ d.goName nm, "()".toList]
      | _ => []

/-- A method that panics, in one line. `sig` is what stands between the type and the name of the message. -/
def stubText (type : Str) (sig : String) : Str :=
  cat ["func (_ ".toList, type, sig.toList, " panic(".toList, inQuotes unsupported, ") }\n".toList]

/-- `Finalize`, which does nothing. -/
def finalizeText (type : Str) : Str := cat ["func (_ ".toList, type, ") Finalize() {".toList, " }\n".toList]

def booleanText (type : Str) : Str := stubText type ") SetBoolean(v bool) {"
def intText (type : Str) : Str := stubText type ") SetInt(v int32) {"
def longText (type : Str) : Str := stubText type ") SetLong(v int64) {"
def floatText (type : Str) : Str := stubText type ") SetFloat(v float32) {"
def doubleText (type : Str) : Str := stubText type ") SetDouble(v float64) {"
def bytesText (type : Str) : Str := stubText type ") SetBytes(v []byte) {"
def stringStub (type : Str) : Str := stubText type ") SetString(v string) {"
def unionElemText (type : Str) : Str := stubText type ") SetUnionElem(v int64) {"
def getText (type : Str) : Str := stubText type ") Get(i int) types.Field {"
def defaultText (type : Str) : Str := stubText type ") SetDefault(i int) {"
def appendMapText (type : Str) : Str := stubText type ") AppendMap(key string) types.Field {"
def appendArrayText (type : Str) : Str := stubText type ") AppendArray() types.Field {"

/-! Records -/

/-- `ConstructableForField`, v10/schema/record.go:84-89, in a case of `Get`, templates/record.go:105-107. -/
def fieldMakeText (nm : Namer) (n : NS) (f : PField) : Str :=
  if f.ty.ctorText nm n = [] then [] else
    cat ["r.".toList, fieldGoName nm f.name, " = ".toList, f.ty.ctorText nm n, "\n\n\t\t".toList]

/-- templates/record.go:108-116. -/
def fieldReturnText (nm : Namer) (n : NS) (f : PField) : Str :=
  if f.ty.wrapperText nm n = [] then cat ["return r.".toList, fieldGoName nm f.name, "\n\t\t".toList] else
    cat ["w := ".toList, f.ty.wrapperText nm n, "{Target: &r.".toList, fieldGoName nm f.name, "}\n\t\t\t".toList,
      if f.ty.isMap then "\n\t\t\treturn &w\n\t\t\t\n\t\t".toList else "\n\t\t\treturn w\n\t\t\t\n\t\t".toList]

/-- templates/record.go:102-117. -/
def recordCaseTexts (nm : Namer) (n : NS) : Nat → List PField → Str
  | _, [] => []
  | i, f :: fs => cat ["case ".toList, Nat.toDigits 10 i, ":\n\t\t".toList, fieldMakeText nm n f, fieldReturnText nm n f,
      recordCaseTexts nm n (i + 1) fs]

/-- templates/record.go:99-120. -/
def recordGetText (nm : Namer) (n : NS) (name : Str) (fs : List PField) : Str :=
  cat ["\nfunc (r ".toList, "*".toList ++ name, ") Get(i int) types.Field {".toList, "\n\tswitch (i) {\n\t".toList, recordCaseTexts nm n 0 fs,
    "}\n\tpanic(".toList, inQuotes "Unknown field index".toList, ")\n}\n".toList]

/-- templates/record.go:137-143. -/
def nullCaseTexts (nm : Namer) : Nat → List PField → Str
  | _, [] => []
  | i, f :: fs => cat [if f.ty.nullable then
      cat ["case ".toList, Nat.toDigits 10 i, ":\n\t\tr.".toList, fieldGoName nm f.name, " = nil\n\t\treturn\n\t".toList] else [],
      nullCaseTexts nm (i + 1) fs]

/-- templates/record.go:134-146. -/
def recordNullText (nm : Namer) (name : Str) (fs : List PField) : Str :=
  cat ["\nfunc (r ".toList, "*".toList ++ name, ") NullField(i int) {".toList, " \n\tswitch (i) {\n\t".toList, nullCaseTexts nm 0 fs,
    "}\n\tpanic(".toList, inQuotes "Not a nullable field index".toList, ")\n}\n".toList]

/-- templates/record.go:91-98, 100-120, 135-151. -/
def recordMethodTexts (nm : Namer) (n : NS) (name : Str) (fs : List PField) : List Str :=
  [booleanText name, intText name, longText name, floatText name, doubleText name, bytesText name, stringStub name, unionElemText name,
    recordGetText nm n name fs, recordNullText nm name fs, "\n".toList ++ appendMapText name, appendArrayText name,
    stubText name ") HintSize(int) {", finalizeText name]

/-! Unions -/

/-- The receiver of `SetLong` and `Get`, templates/union.go:113-117, 120-124: a pointer in both cases. -/
def unionRecvText (ts : List PTy) (type : Str) : Str := if PTy.hasNull ts then type else "*".toList ++ type

/-- templates/union.go:113-119. -/
def unionSetLongText (name type : Str) (ts : List PTy) : Str :=
  cat ["\nfunc (r ".toList, unionRecvText ts type, ") SetLong(v int64) {".toList, " \n\n\tr.UnionType = (".toList, unionEnumType name, ")(v)\n}\n".toList]

/-- templates/union.go:126-136. -/
def memberCaseTexts (nm : Namer) (n : NS) : Nat → List PTy → Str
  | _, [] => []
  | i, t :: ts => cat ["case ".toList, Nat.toDigits 10 i, ":\n\t\t".toList,
      if t.ctorText nm n = [] then [] else cat ["r.".toList, t.goName nm n, " = ".toList, t.ctorText nm n, "\n\t\t".toList],
      if t.wrapperText nm n = [] then cat ["return r.".toList, t.goName nm n, "\n\t\t".toList]
      else cat ["return &".toList, t.wrapperText nm n, "{Target: (&r.".toList, t.goName nm n, ")}\n\t\t".toList],
      memberCaseTexts nm n (i + 1) ts]

/-- templates/union.go:120-139. -/
def unionGetText (nm : Namer) (n : NS) (type : Str) (ts : List PTy) : Str :=
  cat ["\nfunc (r ".toList, unionRecvText ts type, ") Get(i int) types.Field {".toList, "\n\n\tswitch (i) {\n\t".toList, memberCaseTexts nm n 0 ts,
    "}\n\tpanic(".toList, inQuotes "Unknown field index".toList, ")\n}\n".toList]

/-- templates/union.go:107-145. -/
def unionMethodTexts (nm : Namer) (n : NS) (name type : Str) (ts : List PTy) : List Str :=
  [booleanText type, intText type, floatText type, doubleText type, bytesText type, stringStub type, unionSetLongText name type ts,
    unionGetText nm n type ts, stubText type ") NullField(i int) {", stubText type ") HintSize(i int) {", defaultText type, appendMapText type,
    appendArrayText type, cat ["func (_ ".toList, type, ") Finalize()  {".toList, " }\n".toList]]

/-! Arrays -/

/-- templates/array.go:43-47. -/
def arrayHintText (name type : Str) : Str :=
  cat ["func (r ".toList, name, ") HintSize(s int) {".toList, "\n\tif len(*r.Target) == 0 {\n".toList, "\t\t*r.Target = make(".toList, type,
    ", 0, s)\n\t}\n}\n".toList]

/-- templates/array.go:48-54. -/
def arrayNullText (name : Str) (nullable : Bool) : Str :=
  if nullable then cat ["func (r ".toList, name, ") NullField(i int) {".toList, " \n\t(*r.Target)".toList, "[len(*r.Target)-1] = nil\t\t\n\t}\n".toList]
  else cat ["func (r ".toList, name, ") NullField(i int) {".toList, " \n\tpanic(".toList, inQuotes unsupported, ")\n\t}\n".toList]

/-- `ItemConstructable`, v10/schema/array.go:104-109, map.go:98-103; `after` is what the template puts behind it. -/
def itemMakeText (nm : Namer) (n : NS) (item : PTy) (after : String) : Str :=
  if item.ctorText nm n = [] then [] else cat ["v = ".toList, item.ctorText nm n, after.toList]

/-- templates/array.go:62-66. -/
def arrayReturnText (nm : Namer) (n : NS) (item : PTy) : Str :=
  if item.wrapperText nm n = [] then cat ["\n        return (*r.Target)".toList, "[len(*r.Target)-1]\n}\n".toList]
  else cat ["return &".toList, item.wrapperText nm n, "{Target: &(*r.Target)".toList, "[len(*r.Target)-1]}\n}\n".toList]

/-- templates/array.go:55-67. -/
def arrayAppendText (nm : Namer) (n : NS) (name : Str) (item : PTy) : Str :=
  cat ["\nfunc (r ".toList, name, ") AppendArray() types.Field {".toList, "\n\tvar v ".toList, item.goType nm n, "\n\t".toList,
    itemMakeText nm n item "\n", "\n\t*r.Target = append(".toList, "*r.Target, v)\n        ".toList, arrayReturnText nm n item]

/-- templates/array.go:31-67. -/
def arrayMethodTexts (nm : Namer) (n : NS) (name type : Str) (item : PTy) : List Str :=
  [booleanText name, intText name, longText name, floatText name, doubleText name, bytesText name, stringStub name, unionElemText name, getText name,
    appendMapText name, finalizeText name, defaultText name, arrayHintText name type, arrayNullText name item.nullable,
    arrayAppendText nm n name item]

/-! Maps -/

/-- templates/map.go:44-50. -/
def mapHintText (name item : Str) : Str :=
  cat ["\nfunc (r ".toList, "*".toList ++ name, ") HintSize(s int) {".toList, "\n\tif r.keys == nil {\n\t\t".toList, "r.keys = make([]string, 0, s)\n".toList,
    "\t\tr.values= make([]".toList, item, ", 0, s)\n\t}\n}\n".toList]

/-- templates/map.go:51-58. -/
def mapNullText (name : Str) (nullable : Bool) : Str :=
  if nullable then cat ["\nfunc (r ".toList, "*".toList ++ name, ") NullField(_ int) {".toList, " \n\tr.".toList,
    "values[len(r.values)-1] = nil\t\t\n\t}\n".toList]
  else cat ["\nfunc (r ".toList, "*".toList ++ name, ") NullField(_ int) {".toList, " \n\tpanic(".toList, inQuotes unsupported, ")\n\t}\n".toList]

/-- templates/map.go:59-64. -/
def mapFinalizeText (name : Str) : Str :=
  cat ["\nfunc (r ".toList, "*".toList ++ name, ") Finalize() {".toList, " \n\tfor i := range r.keys {\n".toList, "\t\t(*r.Target)[r.keys[i]]".toList,
    " = r.values[i]\n\t}\n}\n".toList]

/-- templates/map.go:73-77. -/
def mapReturnText (nm : Namer) (n : NS) (item : PTy) : Str :=
  if item.wrapperText nm n = [] then cat ["return r.".toList, "values[len(r.values)-1]\n\t}\n".toList]
  else cat ["return &".toList, item.wrapperText nm n, "{Target: &r.".toList, "values[len(r.values)-1]}\n\t}\n".toList]

/-- templates/map.go:65-78. -/
def mapAppendText (nm : Namer) (n : NS) (name : Str) (item : PTy) : Str :=
  cat ["\nfunc (r ".toList, "*".toList ++ name, ") AppendMap(key string) types.Field {".toList, " \n\tr.keys = append(r.keys, key)".toList,
    "\n\tvar v ".toList, item.goType nm n, "\n\t".toList, itemMakeText nm n item "\n\n\t", "r.values = append(r.values, v)\n\t".toList,
    mapReturnText nm n item]

/-- templates/map.go:34-80. -/
def mapMethodTexts (nm : Namer) (n : NS) (name : Str) (item : PTy) : List Str :=
  let ptr := "*".toList ++ name
  [booleanText ptr, intText ptr, longText ptr, floatText ptr, doubleText ptr, bytesText ptr, stringStub ptr, unionElemText ptr, getText ptr,
    defaultText ptr, mapHintText name (item.goType nm n), mapNullText name item.nullable, mapFinalizeText name, mapAppendText nm n name item,
    "\n".toList ++ appendArrayText ptr]

/-! Enums and fixeds -/

/-- A method of an enum's wrapper that panics, templates/enum.go:72-129. -/
def enumStubText (name : Str) (sig text : String) : Str :=
  cat ["\nfunc (b ".toList, name, sig.toList, "\n\tpanic(".toList, inQuotes text.toList, ")\n}\n".toList]

/-- templates/enum.go:75-78. -/
def enumSetIntText (name type : Str) : Str :=
  cat ["\nfunc (b ".toList, name, ") SetInt(v int32) {".toList, "\n\t*(b.Target) = ".toList, type, "(v)\n}\n".toList]

/-- templates/enum.go:72-129. -/
def enumMethodTexts (name type : Str) : List Str :=
  [enumStubText name ") SetBoolean(v bool) {" "Unable to assign boolean to int field",
   enumSetIntText name type,
   enumStubText name ") SetLong(v int64) {" "Unable to assign long to int field",
   enumStubText name ") SetFloat(v float32) {" "Unable to assign float to int field",
   enumStubText name ") SetUnionElem(v int64) {" "Unable to assign union elem to int field",
   enumStubText name ") SetDouble(v float64) {" "Unable to assign double to int field",
   enumStubText name ") SetBytes(v []byte) {" "Unable to assign bytes to int field",
   enumStubText name ") SetString(v string) {" "Unable to assign string to int field",
   enumStubText name ") Get(i int) types.Field {" "Unable to get field from int field",
   enumStubText name ") SetDefault(i int) {" "Unable to set default on int field",
   enumStubText name ") AppendMap(key string) types.Field {" "Unable to append map key to from int field",
   enumStubText name ") AppendArray() types.Field {" "Unable to append array element to from int field",
   enumStubText name ") NullField(int) {" "Unable to null field in int field",
   enumStubText name ") HintSize(int) {" "Unable to hint size in int field",
   cat ["\nfunc (b ".toList, name, ") Finalize() {".toList, "}\n".toList]]

/-- templates/fixed.go:42-44. -/
def fixedSetBytesText (name : Str) : Str :=
  cat ["func (r ".toList, name, ") SetBytes(v []byte) {".toList, " \n\tcopy((*r.Target)[:], v)\n}\n".toList]

/-- templates/fixed.go:37-53. -/
def fixedMethodTexts (name : Str) : List Str :=
  [booleanText name, intText name, longText name, floatText name, doubleText name, fixedSetBytesText name, stringStub name, unionElemText name,
    getText name, appendMapText name, appendArrayText name, stubText name ") NullField(int) {", stubText name ") HintSize(int) {",
    finalizeText name, defaultText name]

/-! All types -/

/-- The texts of the methods that are generated for a type. -/
def PTy.methodTexts (nm : Namer) (n : NS) : PTy → List Str
  | .prim _ _ => []
  | .array t d => arrayMethodTexts nm n ((PTy.array t d).goName nm n ++ "Wrapper".toList) ((PTy.array t d).goType nm n) t
  | .map t d => mapMethodTexts nm n ((PTy.map t d).goName nm n ++ "Wrapper".toList) t
  | .union name ts d => unionMethodTexts nm n ((PTy.union name ts d).goName nm n) ((PTy.union name ts d).goType nm n) ts
  | .ref q => match n.find q with
    | none => []
    | some d => match d.kind with
      | .record fs _ => recordMethodTexts nm n (d.goName nm) fs
      | .enum _ _ _ => enumMethodTexts (d.goName nm ++ "Wrapper".toList) (d.goName nm)
      | .fixed _ => fixedMethodTexts (d.goName nm ++ "Wrapper".toList)

/-- The declaration of a wrapper, templates/array.go:27-29, enum.go:68-70, fixed.go:17-19. -/
def wrapperDecl (name type : Str) : Str :=
  cat ["\ntype ".toList, name, " struct {\n\tTarget *".toList, type, "\n}\n".toList]

/-- The declaration of a map's wrapper, templates/map.go:28-32. -/
def mapWrapperDecl (name item : Str) : Str :=
  cat ["\ntype ".toList, name, " struct {\n\tTarget *map[string]".toList, item, "\n\tkeys []string\n\tvalues []".toList, item, "\n}\n".toList]

/-- The declaration of the wrapper of a type. -/
def PTy.wrapperDecl (nm : Namer) (n : NS) : PTy → Option Str
  | .prim _ _ => none
  | .array t d => some (Verif.wrapperDecl ((PTy.array t d).goName nm n ++ "Wrapper".toList) ((PTy.array t d).goType nm n))
  | .map t d => some (mapWrapperDecl ((PTy.map t d).goName nm n ++ "Wrapper".toList) (t.goType nm n))
  | .union _ _ _ => none
  | .ref q => match n.find q with
    | none => none
    | some d => match d.kind with
      | .record _ _ => none
      | _ => some (Verif.wrapperDecl (d.goName nm ++ "Wrapper".toList) (d.goName nm))

end Verif
