import Verif.Spec.GoJson
import Verif.Gen.DefaultText
import Verif.Gen.Code
/-
The methods `MarshalJSON` and `UnmarshalJSON` of generated types as Go programs, and their text as text/template makes it from
v10/generator/flat/templates/{record,union,enum,fixed,bytes}.go.
-/
namespace Verif
open Spec Spec.Go Spec.GoJ

/-! ### Programs -/

/-- The loop of templates/record.go:163-168. -/
def putSts (nm : Namer) : List PField → List MSt
  | [] => []
  | f :: fs => .put (utf8 f.name) (fieldGoName nm f.name) :: .check :: putSts nm fs

/-- `MarshalJSON` of a record, templates/record.go:158-170. -/
def recordMarshal (nm : Namer) (fs : List PField) : List MSt :=
  (if fs.isEmpty then [] else [.varErr]) ++ .makeOutput :: (putSts nm fs ++ [.retOutput])

/-- The message for a field without value, templates/record.go:205. -/
def missingMessage (f : PField) : Str := "no value specified for ".toList ++ f.name

/-- templates/record.go:198-206: the statements of `ConstructableForField` and `DefaultForField` (v10/schema/record.go:80-89), or the
error. The number bounds the recursion of `DefaultValue`. -/
def elseSts (nm : Namer) (n : NS) (k : Nat) (f : PField) : Made Else := match f.dflt with
  | none => .ok (.fail (bytesOf (missingMessage f)))
  | some j => do
    let l ← defaultSts nm n k j f.ty
    return .sets ((ctorSts nm n f.ty ++ l).map (.under (.field (fieldGoName nm f.name))))

/-- The loop of templates/record.go:181-208. -/
def fieldReads (nm : Namer) (n : NS) (k : Nat) : List PField → Made (List USt)
  | [] => .ok []
  | f :: fs => do
    let e ← elseSts nm n k f
    let r ← fieldReads nm n k fs
    return .find ((f.name :: f.aliases).map utf8) :: .field (fieldGoName nm f.name) e :: r

/-- `UnmarshalJSON` of a record, templates/record.go:172-210. -/
def recordUnmarshal (nm : Namer) (n : NS) (k : Nat) (fs : List PField) : Made (List USt) := do
  let l ← fieldReads nm n k fs
  return .varFields :: .readFields :: ((if fs.isEmpty then [] else [.varVal]) ++ (l ++ [.retNil]))

/-- `UnionKey` of a member. The generator panics where there is none (v10/schema/union.go:190-192). -/
def PTy.key (n : NS) (t : PTy) : Str := (unionKey n.env t.erase).getD []

/-- The cases of templates/union.go:154-159. `type` is `UnionEnumType`. -/
def jsonCases (nm : Namer) (n : NS) (type : Str) (null : Option Nat) : Nat → List PTy → List (Str × List Byte × Str)
  | _, [] => []
  | i, t :: ts => (if null = some i then [] else [(type ++ t.goName nm n, bytesOf (t.key n), t.goName nm n)]) ++ jsonCases nm n type null (i + 1) ts

/-- `MarshalJSON` of a union, templates/union.go:147-162. -/
def unionMarshal (nm : Namer) (n : NS) (name type : Str) (ts : List PTy) : List MSt :=
  (if (nullAt 0 ts).isSome then [.ifNil] else []) ++
    [.switch (jsonCases nm n (unionEnumType name) (nullAt 0 ts) 0 ts), .fail (bytesOf (unionMessage type))]

/-- The loop of templates/union.go:177-184. -/
def memberReads (nm : Namer) (n : NS) (null : Option Nat) : Nat → List PTy → List USt
  | _, [] => []
  | i, t :: ts => (if null = some i then [] else [.member (bytesOf (t.key n)) i (t.goName nm n)]) ++ memberReads nm n null (i + 1) ts

/-- templates/union.go:175. -/
def severalMessage : Str := "more than one type supplied for union".toList

/-- `UnmarshalJSON` of a union, templates/union.go:165-186. -/
def unionUnmarshal (nm : Namer) (n : NS) (type : Str) (ts : List PTy) : List USt :=
  [.varFields, .readFields, .single (bytesOf severalMessage)] ++ (memberReads nm n (nullAt 0 ts) 0 ts ++ [.fail (bytesOf (unionMessage type))])

/-- `NewXValue`, v10/schema/enum.go:71-73. -/
def valueName (type : Str) : Str := "New".toList ++ type ++ "Value".toList

/-- `MarshalJSON` of an enum, templates/enum.go:53-55. -/
def enumMarshal : List MSt := [.retString]

/-- `UnmarshalJSON` of an enum, templates/enum.go:57-66. -/
def enumUnmarshal (type : Str) : List USt :=
  [.varString "stringVal".toList, .defErr "stringVal".toList, .check, .call (valueName type) "stringVal".toList, .setVal, .retErr]

/-- The functions `String` and `NewXValue` of an enum, templates/enum.go:24-51. -/
def enumFuncs (nm : Namer) (type : Str) (syms : List Str) (dflt : Str) : EnumFuncs where
  strings := syms.map fun s => (symbolGoName nm type s, bytesOf s)
  values := syms.map fun s => (bytesOf s, symbolGoName nm type s)
  other := if dflt = [] then none else some (symbolGoName nm type dflt)

/-- `MarshalJSON` of a fixed, templates/fixed.go:33-35. -/
def fixedMarshal : List MSt := [.retBytes true]

/-- `UnmarshalJSON` of a fixed, templates/fixed.go:23-31. -/
def fixedUnmarshal : List USt := [.varString "s".toList, .readString "s".toList, .defPoints "s".toList, .copyPoints, .retNil]

/-- `MarshalJSON` of bytes, templates/bytes.go:23-25. -/
def bytesMarshal : List MSt := [.retBytes false]

/-- `UnmarshalJSON` of bytes, templates/bytes.go:14-21. -/
def bytesUnmarshal : List USt := [.varString "s".toList, .readString "s".toList, .setBytes "s".toList, .retNil]

/-! ### Texts -/

/-- templates/record.go:158, union.go:147, enum.go:53, fixed.go:33, bytes.go:23. -/
def marshalHead (x type : Str) : Str := cat ["\nfunc (".toList, x, " ".toList, type, ") MarshalJSON() ([]byte, error) {\n\t".toList]

/-- templates/record.go:172, union.go:166 and 168, enum.go:57, fixed.go:23, bytes.go:14. -/
def unmarshalHead (x type : Str) : Str := cat ["\nfunc (".toList, x, " ".toList, type, ") UnmarshalJSON(data []byte) (error) {\n".toList]

/-- The loop of templates/record.go:163-168. -/
def putTexts (nm : Namer) (print : Char → Bool) : List PField → Str
  | [] => []
  | f :: fs => cat ["output[".toList, quoted print (utf8 f.name), "], err = json.Marshal(r.".toList, fieldGoName nm f.name,
      ")\n\tif err != nil {\n".toList, "\t\treturn nil, err\n\t}\n\t".toList, putTexts nm print fs]

/-- templates/record.go:158-170. -/
def recordMarshalText (nm : Namer) (print : Char → Bool) (name : Str) (fs : List PField) : Str :=
  cat [marshalHead "r".toList name, if fs.isEmpty then [] else "var err error\n\t".toList, "output := make(map[string]json.RawMessage)\n\t".toList,
    putTexts nm print fs, "return json.Marshal(output)\t\n}\n".toList]

/-- templates/record.go:183-185 and 187-189. -/
def findText (print : Char → Bool) (key : Str) : Str :=
  cat ["if v, ok := fields[".toList, quoted print (utf8 key), "]; ok {\n\t\t\treturn v\n\t\t}\n\t\t".toList]

def findTexts (print : Char → Bool) : List Str → Str
  | [] => []
  | k :: ks => cat [findText print k, findTexts print ks]

/-- templates/record.go:198-206. -/
def elseText (nm : Namer) (n : NS) (print : Char → Bool) (k : Nat) (f : PField) : Made Str := match f.dflt with
  | none => .ok (cat ["return fmt.Errorf(".toList, inQuotes (missingMessage f), ")\n\t\t".toList])
  | some _ => do
    let l ← defaultForField nm n print k f "\n\t\t"
    return cat [if f.ty.ctorText nm n = [] then [] else cat [ctorLine nm n (cat ["r.".toList, fieldGoName nm f.name]) f.ty, "\n\t\t".toList], l]

/-- The loop of templates/record.go:181-208. -/
def fieldReadTexts (nm : Namer) (n : NS) (print : Char → Bool) (k : Nat) : List PField → Made Str
  | [] => .ok []
  | f :: fs => do
    let e ← elseText nm n print k f
    let r ← fieldReadTexts nm n print k fs
    return cat ["val = func() json.RawMessage {\n\t\t".toList, findTexts print (f.name :: f.aliases), "return nil\n\t}()\n\n\t".toList,
      "if val != nil {\n\t\tif err := json.Unmarshal(".toList, "[]byte(val), &r.".toList, fieldGoName nm f.name, "); err != nil {\n\t\t\treturn err\n\t\t}\n".toList,
      "\t} else {\n        \t".toList, e, "}\n\t".toList, r]

/-- templates/record.go:173-176, union.go:170-173. -/
def readFieldsText : Str := cat ["\tvar fields map[string]json.RawMessage\n".toList, "\tif err := json.Unmarshal(data, &fields); ".toList,
  "err != nil {\n\t\treturn err\n\t}\n\t".toList]

/-- templates/record.go:172-210. -/
def recordUnmarshalText (nm : Namer) (n : NS) (print : Char → Bool) (k : Nat) (name : Str) (fs : List PField) : Made Str := do
  let l ← fieldReadTexts nm n print k fs
  return cat [unmarshalHead "r".toList ("*".toList ++ name), readFieldsText, if fs.isEmpty then [] else "var val json.RawMessage\n\t".toList, l, "return nil\n}\n".toList]

/-- The loop of templates/union.go:154-159. -/
def jsonCaseTexts (nm : Namer) (n : NS) (type : Str) (null : Option Nat) : Nat → List PTy → Str
  | _, [] => []
  | i, t :: ts => cat [if null = some i then [] else cat ["case ".toList, type ++ t.goName nm n, ":\n\t\treturn json.Marshal(".toList, "map[string]interface{}{".toList,
      inQuotes (t.key n), ": r.".toList, t.goName nm n, "})\n        ".toList], jsonCaseTexts nm n type null (i + 1) ts]

/-- templates/union.go:147-162. -/
def unionMarshalText (nm : Namer) (n : NS) (name type : Str) (ts : List PTy) : Str :=
  cat [marshalHead "r".toList type, if (nullAt 0 ts).isSome then cat ["\n\tif r == nil {\n\t\treturn []byte(".toList, inQuotes "null".toList, "), nil\n\t}\n\t".toList] else [],
    "\n\tswitch r.UnionType{\n\t".toList, jsonCaseTexts nm n (unionEnumType name) (nullAt 0 ts) 0 ts, "}\n\treturn nil, fmt.Errorf(".toList, inQuotes (unionMessage type), ")\n}\n".toList]

/-- The loop of templates/union.go:177-184. -/
def memberReadTexts (nm : Namer) (n : NS) (null : Option Nat) : Nat → List PTy → Str
  | _, [] => []
  | i, t :: ts => cat [if null = some i then [] else cat ["if value,  ok := fields[".toList, inQuotes (t.key n), "]; ok {\n\t\tr.UnionType = ".toList, Nat.toDigits 10 i,
      "\n\t\treturn json.Unmarshal(".toList, "[]byte(value), &r.".toList, t.goName nm n, ")\n\t}\n        ".toList], memberReadTexts nm n null (i + 1) ts]

/-- templates/union.go:165-186. -/
def unionUnmarshalText (nm : Namer) (n : NS) (type : Str) (ts : List PTy) : Str :=
  cat [unmarshalHead "r".toList (unionRecvText ts type), "\n".toList, readFieldsText, "if len(fields) > 1 {\n\t\treturn fmt.Errorf(".toList, inQuotes severalMessage, ")\n\t}\n\t".toList,
    memberReadTexts nm n (nullAt 0 ts) 0 ts, "return fmt.Errorf(".toList, inQuotes (unionMessage type), ")\n}\n".toList]

/-- templates/enum.go:53-55. -/
def enumMarshalText (name : Str) : Str := cat [marshalHead "b".toList name, "return json.Marshal(b.String())\n}\n".toList]

/-- templates/enum.go:57-66. -/
def enumUnmarshalText (name : Str) : Str :=
  cat [unmarshalHead "b".toList ("*".toList ++ name), "\tvar stringVal string\n\terr := json.Unmarshal(".toList, "data, &stringVal)\n\tif err != nil {\n\t\treturn err\n\t}\n".toList,
    "\tval, err := ".toList, valueName name, "(stringVal)\n\t*b = val\n\treturn err\n}\n".toList]

/-- templates/fixed.go:33-35. -/
def fixedMarshalText (name : Str) : Str := cat [marshalHead "b".toList name, "return []byte(util.EncodeByteString(".toList, "b[:])), nil\n}\n".toList]

/-- templates/fixed.go:24-27, bytes.go:15-18. -/
def readStringText : Str := cat ["\tvar s string\n\tif err := json.Unmarshal(".toList, "data, &s); err != nil {\n\t\treturn err\n\t}\n".toList]

/-- templates/fixed.go:23-31. -/
def fixedUnmarshalText (name : Str) : Str :=
  cat [unmarshalHead "b".toList ("*".toList ++ name), readStringText, "\tcodepoints := util.DecodeByteString(s)\n".toList, "\tcopy((*b)[:], codepoints)\n\treturn nil\n}\n".toList]

/-- templates/bytes.go:23-25. -/
def bytesMarshalText : Str := cat [marshalHead "b".toList "Bytes".toList, "return []byte(util.EncodeByteString(".toList, "b)), nil\n}\n".toList]

/-- templates/bytes.go:14-21. -/
def bytesUnmarshalText : Str :=
  cat [unmarshalHead "b".toList "*Bytes".toList, readStringText, "\t*b = util.DecodeByteString(s)\n\treturn nil\n}\n".toList]

end Verif
