import Verif.Spec.GoTarget
import Verif.Spec.GoValues
import Verif.Parser.Parse
/-
The methods of generated targets as Go programs: those of v10/generator/flat/templates by which `vm.Eval` fills in
a value (`Get`, `SetLong`, `AppendArray`, `AppendMap`, `NullField`, `HintSize`, `Finalize`, …). Gen/MethodsText has
their text as text/template makes it, Gen/MethodsRun what they do. The methods of v10/vm/types and of
templates/bytes.go do not depend on the schema. Left out: `SetDefault` of a record, whose statements are modelled in Gen/Default.
-/
namespace Verif
open Spec.Go Spec.GoT

/-- `types.Record` and `types.Field`. -/
def recordTy : GoTy := .of "types".toList "Record".toList
def fieldTy : GoTy := .of "types".toList "Field".toList

/-- `WrapperType` of the primitive types: null.go:21-23 (`""`), bool.go:29-31, int.go:29-31, long.go:29-31,
float.go:29-31, double.go:28-30, bytes.go:33-35, string.go:29-31, all in v10/schema. -/
def Prim.wrapper : Prim → Option GoTy
  | .null => none
  | .bool => some (.of "types".toList "Boolean".toList)
  | .int => some (.of "types".toList "Int".toList)
  | .long => some (.of "types".toList "Long".toList)
  | .float => some (.of "types".toList "Float".toList)
  | .double => some (.of "types".toList "Double".toList)
  | .bytes => some (.named "BytesWrapper".toList)
  | .string => some (.of "types".toList "String".toList)

/-- `WrapperType` of arrays, maps, enums and fixeds, given the name: v10/schema/array.go:81-83, map.go:76-78,
enum.go:104-106, fixed.go:80-82. -/
def wrapperName (name : Str) : Str := name ++ "Wrapper".toList

/-- `WrapperType`; `none` for `""`. Besides those above v10/schema/union.go:127-132, record.go:129-131,
reference.go:39-41. -/
def PTy.wrapper (nm : Namer) (n : NS) : PTy → Option GoTy
  | .prim p _ => p.wrapper
  | .array t d => some (.named (wrapperName ((PTy.array t d).goName nm n)))
  | .map t d => some (.named (wrapperName ((PTy.map t d).goName nm n)))
  | .union _ ts _ => if ts.any nullTy then none else some recordTy
  | .ref q => match n.find q with
    | none => none
    | some d => match d.kind with
      | .record _ _ => some recordTy
      | _ => some (.named (wrapperName (d.goName nm)))

/-- `WrapperPointer`: v10/schema/map.go:80-82; false for the others (array.go:85-87, union.go:134-136,
record.go:133-135, enum.go:108, fixed.go:84, primitive.go:41, reference.go:43-45). -/
def PTy.isMap : PTy → Bool
  | .map _ _ => true
  | _ => false

/-- `ConstructorMethod` of a union or record, without the parentheses: v10/schema/union.go:156-158, record.go:76-78. -/
def newName (name : Str) : Str := "New".toList ++ name

/-- `getConstructableForType` and `ConstructorMethod`: v10/schema/constructable.go:7-17, array.go:55-57,
map.go:55-57, union.go:156-158, record.go:76-78. -/
def PTy.ctor (nm : Namer) (n : NS) : PTy → Option Ex
  | .prim _ _ => none
  | .array t d => some (.makeSlice (goTypeOf nm n (.array t d)))
  | .map t d => some (.makeMap (goTypeOf nm n (.map t d)))
  | .union name ts d => some (.call (newName ((PTy.union name ts d).goName nm n)))
  | .ref q => match n.find q with
    | none => none
    | some d => match d.kind with
      | .record _ _ => some (.call (newName (d.goName nm)))
      | _ => none

/-- `isNullable`, templates/lookup.go:70-75. -/
def PTy.nullable : PTy → Bool
  | .union _ ts _ => ts.any nullTy
  | _ => false

/-! ### Programs -/

/-- The variables of the templates. -/
def xR : Ex := .var "r".toList
def xV : Ex := .var "v".toList
def xI : Ex := .var "i".toList
/-- `r.Target` -/
def xTarget : Ex := .sel xR "Target".toList
/-- `*r.Target` -/
def xSlice : Ex := .star xTarget
/-- `r.keys`, `r.values` -/
def xKeys : Ex := .sel xR "keys".toList
def xValues : Ex := .sel xR "values".toList

def goInt : GoTy := .named "int".toList
def goString : GoTy := .named "string".toList

/-- The text of most panics. -/
def unsupported : Str := "Unsupported operation".toList

/-- A method that only panics, in one line. -/
def stub (recv : GoTy) (name : String) (params : List (String × GoTy)) (result : Option GoTy) : Method where
  recv := ("_".toList, recv)
  name := name.toList
  params := params.map fun p => (p.1.toList, p.2)
  result := result
  body := [.panic unsupported]
  short := true

/-- `Finalize() { }`. -/
def finalizeStub (recv : GoTy) : Method where
  recv := ("_".toList, recv)
  name := "Finalize".toList
  params := []
  result := none
  body := []
  short := true

def stubBoolean (ty : GoTy) : Method := stub ty "SetBoolean" [("v", .named "bool".toList)] none
def stubInt (ty : GoTy) : Method := stub ty "SetInt" [("v", .named "int32".toList)] none
def stubLong (ty : GoTy) : Method := stub ty "SetLong" [("v", .named "int64".toList)] none
def stubFloat (ty : GoTy) : Method := stub ty "SetFloat" [("v", .named "float32".toList)] none
def stubDouble (ty : GoTy) : Method := stub ty "SetDouble" [("v", .named "float64".toList)] none
def stubBytes (ty : GoTy) : Method := stub ty "SetBytes" [("v", .slice (.named "byte".toList))] none
def stubString (ty : GoTy) : Method := stub ty "SetString" [("v", goString)] none
def stubUnionElem (ty : GoTy) : Method := stub ty "SetUnionElem" [("v", .named "int64".toList)] none
def stubGet (ty : GoTy) : Method := stub ty "Get" [("i", goInt)] (some fieldTy)
def stubDefault (ty : GoTy) : Method := stub ty "SetDefault" [("i", goInt)] none
def stubMap (ty : GoTy) : Method := stub ty "AppendMap" [("key", goString)] (some fieldTy)
def stubArray (ty : GoTy) : Method := stub ty "AppendArray" [] (some fieldTy)
/-- `NullField` and `HintSize` are written with and without a name for the parameter. -/
def stubNull (ty : GoTy) (x : String) : Method := stub ty "NullField" [(x, goInt)] none
def stubHint (ty : GoTy) (x : String) : Method := stub ty "HintSize" [(x, goInt)] none

/-! Records -/

/-- `r.F = NewX()`, `v = NewX()`: `ConstructableForField`, v10/schema/record.go:84-89; `ItemConstructable`,
array.go:104-109, map.go:98-103; `ItemConstructor`, union.go:80-85. -/
def makeStmts (l : Ex) : Option Ex → List Spec.GoT.St
  | none => []
  | some c => [.assign l c]

/-- A case of `Get`, templates/record.go:104-116. -/
def recordOpen (nm : Namer) (n : NS) (f : PField) : List Spec.GoT.St :=
  makeStmts (.sel xR (fieldGoName nm f.name)) (f.ty.ctor nm n) ++ match f.ty.wrapper nm n with
    | none => [.ret (.sel xR (fieldGoName nm f.name))]
    | some W => [.define "w".toList (.lit W (.amp (.sel xR (fieldGoName nm f.name)))),
        .ret (if f.ty.isMap then .amp (.var "w".toList) else .var "w".toList)]

/-- The cases of `Get`, templates/record.go:102-117. -/
def recordCases (nm : Namer) (n : NS) : Nat → List PField → List (Nat × List Spec.GoT.St)
  | _, [] => []
  | i, f :: fs => (i, recordOpen nm n f) :: recordCases nm n (i + 1) fs

/-- `Get`, templates/record.go:100-120. -/
def recordGet (nm : Namer) (n : NS) (name : Str) (fs : List PField) : Method where
  recv := ("r".toList, .pointer (.named name))
  name := "Get".toList
  params := [("i".toList, goInt)]
  result := some fieldTy
  body := [.switch xI (recordCases nm n 0 fs), .panic "Unknown field index".toList]

/-- The cases of `NullField`, templates/record.go:137-143. -/
def nullCases (nm : Namer) : Nat → List PField → List (Nat × List Spec.GoT.St)
  | _, [] => []
  | i, f :: fs => (if f.ty.nullable then [(i, [.assign (.sel xR (fieldGoName nm f.name)) .nil, .leave])] else []) ++ nullCases nm (i + 1) fs

/-- `NullField`, templates/record.go:135-146. -/
def recordNull (nm : Namer) (name : Str) (fs : List PField) : Method where
  recv := ("r".toList, .pointer (.named name))
  name := "NullField".toList
  params := [("i".toList, goInt)]
  result := none
  body := [.switch xI (nullCases nm 0 fs), .panic "Not a nullable field index".toList]

/-- The methods of a record, templates/record.go:91-98, 100-120, 135-151. -/
def recordMethodsOf (nm : Namer) (n : NS) (name : Str) (fs : List PField) : List Method :=
  let ty := .named name
  [stubBoolean ty, stubInt ty, stubLong ty, stubFloat ty, stubDouble ty, stubBytes ty, stubString ty, stubUnionElem ty,
    recordGet nm n name fs, recordNull nm name fs, stubMap ty, stubArray ty, stubHint ty "", finalizeStub ty]

/-! Unions -/

/-- `SetLong`, templates/union.go:113-119. -/
def unionSetLong (name : Str) : Method where
  recv := ("r".toList, .pointer (.named name))
  name := "SetLong".toList
  params := [("v".toList, .named "int64".toList)]
  result := none
  body := [.assign (.sel xR "UnionType".toList) (.cast (.named (unionEnumType name)) xV)]

/-- A case of `Get`, templates/union.go:128-135. -/
def unionOpen (nm : Namer) (n : NS) (t : PTy) : List Spec.GoT.St :=
  makeStmts (.sel xR (t.goName nm n)) (t.ctor nm n) ++ match t.wrapper nm n with
    | none => [.ret (.sel xR (t.goName nm n))]
    | some W => [.ret (.amp (.lit W (.par (.amp (.sel xR (t.goName nm n))))))]

/-- The cases of `Get`, templates/union.go:126-136. -/
def memberCases (nm : Namer) (n : NS) : Nat → List PTy → List (Nat × List Spec.GoT.St)
  | _, [] => []
  | i, t :: ts => (i, unionOpen nm n t) :: memberCases nm n (i + 1) ts

/-- `Get`, templates/union.go:120-139. -/
def unionGet (nm : Namer) (n : NS) (name : Str) (ts : List PTy) : Method where
  recv := ("r".toList, .pointer (.named name))
  name := "Get".toList
  params := [("i".toList, goInt)]
  result := some fieldTy
  body := [.switch xI (memberCases nm n 0 ts), .panic "Unknown field index".toList]

/-- The methods of a union, templates/union.go:107-145. `ty` is `GoType`. -/
def unionMethodsOf (nm : Namer) (n : NS) (name : Str) (ty : GoTy) (ts : List PTy) : List Method :=
  [stubBoolean ty, stubInt ty, stubFloat ty, stubDouble ty, stubBytes ty, stubString ty, unionSetLong name, unionGet nm n name ts,
    stubNull ty "i", stubHint ty "i", stubDefault ty, stubMap ty, stubArray ty, finalizeStub ty]

/-- The target for an item, templates/array.go:62-66, map.go:73-77. -/
def wrapped (W : Option GoTy) (l : Ex) : Ex :=
  match W with
  | some W => .amp (.lit W (.amp l))
  | none => l

/-! Arrays -/

/-- `(*r.Target)[len(*r.Target)-1]` -/
def lastItem : Ex := .idx (.par xSlice) (.pred (.len xSlice))

/-- `HintSize`, templates/array.go:43-47. -/
def arrayHint (name : Str) (ty : GoTy) : Method where
  recv := ("r".toList, .named name)
  name := "HintSize".toList
  params := [("s".toList, goInt)]
  result := none
  body := [.cond (.eq (.len xSlice) (.num 0)) [.assign xSlice (.makeRoom ty (.var "s".toList))]]

/-- `NullField`, templates/array.go:48-54. -/
def arrayNull (name : Str) (nullable : Bool) : Method where
  recv := ("r".toList, .named name)
  name := "NullField".toList
  params := [("i".toList, goInt)]
  result := none
  body := if nullable then [.assign lastItem .nil] else [.panic unsupported]

/-- `AppendArray`, templates/array.go:56-67. -/
def arrayAppend (nm : Namer) (n : NS) (name : Str) (item : PTy) : Method where
  recv := ("r".toList, .named name)
  name := "AppendArray".toList
  params := []
  result := some fieldTy
  body := .declare "v".toList (goTypeOf nm n item) :: (makeStmts xV (item.ctor nm n) ++
    [Spec.GoT.St.assign xSlice (.append xSlice xV),
     .ret (wrapped (item.wrapper nm n) lastItem)])

/-- The methods of an array's wrapper, templates/array.go:31-67. `name` is `WrapperType`, `ty` is `GoType`. -/
def arrayMethodsOf (nm : Namer) (n : NS) (name : Str) (ty : GoTy) (item : PTy) : List Method :=
  let W := .named name
  [stubBoolean W, stubInt W, stubLong W, stubFloat W, stubDouble W, stubBytes W, stubString W, stubUnionElem W, stubGet W, stubMap W,
    finalizeStub W, stubDefault W, arrayHint name ty, arrayNull name item.nullable, arrayAppend nm n name item]

/-! Maps -/

/-- `r.values[len(r.values)-1]` -/
def lastValue : Ex := .idx xValues (.pred (.len xValues))

/-- `HintSize`, templates/map.go:45-50. -/
def mapHint (name : Str) (item : GoTy) : Method where
  recv := ("r".toList, .pointer (.named name))
  name := "HintSize".toList
  params := [("s".toList, goInt)]
  result := none
  body := [.cond (.eq xKeys .nil) [.assign xKeys (.makeKeys (.var "s".toList)), .assign xValues (.makeRoom (.slice item) (.var "s".toList))]]

/-- `NullField`, templates/map.go:52-58. -/
def mapNull (name : Str) (nullable : Bool) : Method where
  recv := ("r".toList, .pointer (.named name))
  name := "NullField".toList
  params := [("_".toList, goInt)]
  result := none
  body := if nullable then [.assign lastValue .nil] else [.panic unsupported]

/-- `Finalize`, templates/map.go:60-64. -/
def mapFinalize (name : Str) : Method where
  recv := ("r".toList, .pointer (.named name))
  name := "Finalize".toList
  params := []
  result := none
  body := [.range "i".toList xKeys [.assign (.idx (.par xSlice) (.idx xKeys xI)) (.idx xValues xI)]]

/-- `AppendMap`, templates/map.go:66-78. -/
def mapAppend (nm : Namer) (n : NS) (name : Str) (item : PTy) : Method where
  recv := ("r".toList, .pointer (.named name))
  name := "AppendMap".toList
  params := [("key".toList, goString)]
  result := some fieldTy
  body := .assign xKeys (.append xKeys (.var "key".toList)) :: .declare "v".toList (goTypeOf nm n item) ::
    (makeStmts xV (item.ctor nm n) ++
    [Spec.GoT.St.assign xValues (.append xValues xV),
     .ret (wrapped (item.wrapper nm n) lastValue)])

/-- The methods of a map's wrapper, templates/map.go:34-80. -/
def mapMethodsOf (nm : Namer) (n : NS) (name : Str) (item : PTy) : List Method :=
  let W := .pointer (.named name)
  [stubBoolean W, stubInt W, stubLong W, stubFloat W, stubDouble W, stubBytes W, stubString W, stubUnionElem W, stubGet W, stubDefault W,
    mapHint name (goTypeOf nm n item), mapNull name item.nullable, mapFinalize name, mapAppend nm n name item, stubArray W]

/-! Enums and fixeds -/

/-- A method of an enum's wrapper that panics, templates/enum.go:72-129. -/
def enumStub (name : Str) (m : String) (params : List (String × GoTy)) (result : Option GoTy) (text : String) : Method where
  recv := ("b".toList, .named name)
  name := m.toList
  params := params.map fun p => (p.1.toList, p.2)
  result := result
  body := [.panic text.toList]

/-- `SetInt`, templates/enum.go:76-78. `type` is `GoType`. -/
def enumSetInt (name type : Str) : Method where
  recv := ("b".toList, .named name)
  name := "SetInt".toList
  params := [("v".toList, .named "int32".toList)]
  result := none
  body := [.assign (.star (.par (.sel (.var "b".toList) "Target".toList))) (.conv (.named type) xV)]

/-- The methods of an enum's wrapper, templates/enum.go:72-129. -/
def enumMethodsOf (name type : Str) : List Method :=
  [enumStub name "SetBoolean" [("v", .named "bool".toList)] none "Unable to assign boolean to int field",
   enumSetInt name type,
   enumStub name "SetLong" [("v", .named "int64".toList)] none "Unable to assign long to int field",
   enumStub name "SetFloat" [("v", .named "float32".toList)] none "Unable to assign float to int field",
   enumStub name "SetUnionElem" [("v", .named "int64".toList)] none "Unable to assign union elem to int field",
   enumStub name "SetDouble" [("v", .named "float64".toList)] none "Unable to assign double to int field",
   enumStub name "SetBytes" [("v", .slice (.named "byte".toList))] none "Unable to assign bytes to int field",
   enumStub name "SetString" [("v", goString)] none "Unable to assign string to int field",
   enumStub name "Get" [("i", goInt)] (some fieldTy) "Unable to get field from int field",
   enumStub name "SetDefault" [("i", goInt)] none "Unable to set default on int field",
   enumStub name "AppendMap" [("key", goString)] (some fieldTy) "Unable to append map key to from int field",
   enumStub name "AppendArray" [] (some fieldTy) "Unable to append array element to from int field",
   enumStub name "NullField" [("", goInt)] none "Unable to null field in int field",
   enumStub name "HintSize" [("", goInt)] none "Unable to hint size in int field",
   { finalizeStub (.named name) with recv := ("b".toList, .named name) }]

/-- `SetBytes`, templates/fixed.go:42-44. -/
def fixedSetBytes (name : Str) : Method where
  recv := ("r".toList, .named name)
  name := "SetBytes".toList
  params := [("v".toList, .slice (.named "byte".toList))]
  result := none
  body := [.copy (.par xSlice) xV]

/-- The methods of a fixed's wrapper, templates/fixed.go:37-53. -/
def fixedMethodsOf (name : Str) : List Method :=
  let W := .named name
  [stubBoolean W, stubInt W, stubLong W, stubFloat W, stubDouble W, fixedSetBytes name, stubString W, stubUnionElem W, stubGet W, stubMap W,
    stubArray W, stubNull W "", stubHint W "", finalizeStub W, stubDefault W]

/-! The types of v10/vm/types, and the wrapper in templates/bytes.go -/

/-- A method of v10/vm/types or of templates/bytes.go that panics. -/
def libStub (recv : GoTy) (m : String) (params : List (String × GoTy)) (result : Option GoTy) (text : String) : Method where
  recv := ("b".toList, recv)
  name := m.toList
  params := params.map fun p => (p.1.toList, p.2)
  result := result
  body := [.panic text.toList]

/-- `*(b.Target) = e` -/
def libSet (recv : GoTy) (m : String) (ty : GoTy) (e : Ex) : Method where
  recv := ("b".toList, recv)
  name := m.toList
  params := [("v".toList, ty)]
  result := none
  body := [.assign (.star (.par (.sel (.var "b".toList) "Target".toList))) e]

/-- `Finalize() {}` -/
def libFinalize (recv : GoTy) : Method := { finalizeStub recv with recv := ("b".toList, recv) }

def goBool : GoTy := .named "bool".toList
def goInt32 : GoTy := .named "int32".toList
def goInt64 : GoTy := .named "int64".toList
def goFloat32 : GoTy := .named "float32".toList
def goFloat64 : GoTy := .named "float64".toList
def goBytes : GoTy := .slice (.named "byte".toList)

/-- `Field` in package types. -/
def libField : GoTy := .named "Field".toList

/-- v10/vm/types/null.go:5-61 -/
def nullValMethods : List Method :=
  let W := .pointer (.named "NullVal".toList)
  [libStub W "SetBoolean" [("v", goBool)] none "Unable to assign boolean to null field",
   libStub W "SetInt" [("v", goInt32)] none "Unable to assign boolean to null field",
   libStub W "SetLong" [("v", goInt64)] none "Unable to assign long to null field",
   libStub W "SetFloat" [("v", goFloat32)] none "Unable to assign float to null field",
   libStub W "SetUnionElem" [("v", goInt64)] none "Unable to assign union elem to null field",
   libStub W "SetDouble" [("v", goFloat64)] none "Unable to assign double to null field",
   libStub W "SetBytes" [("v", goBytes)] none "Unable to assign bytes to null field",
   libStub W "SetString" [("v", goString)] none "Unable to assign string to null field",
   libStub W "Get" [("i", goInt)] (some libField) "Unable to get field from null field",
   libStub W "SetDefault" [("i", goInt)] none "Unable to set default on null field",
   libStub W "AppendMap" [("key", goString)] (some libField) "Unable to append map key to from null field",
   libStub W "AppendArray" [] (some libField) "Unable to append array element to from null field",
   libStub W "NullField" [("", goInt)] none "Unable to null field in null field",
   libStub W "HintSize" [("", goInt)] none "Unable to hint size in null field",
   libFinalize W]

/-- v10/vm/types/boolean.go:7-63 -/
def booleanMethods : List Method :=
  let W := .named "Boolean".toList
  [libSet W "SetBoolean" goBool xV,
   libStub W "SetInt" [("v", goInt32)] none "Unable to assign int to boolean field",
   libStub W "SetLong" [("v", goInt64)] none "Unable to assign long to boolean field",
   libStub W "SetFloat" [("v", goFloat32)] none "Unable to assign float to boolean field",
   libStub W "SetDouble" [("v", goFloat64)] none "Unable to assign double to boolean field",
   libStub W "SetBytes" [("v", goBytes)] none "Unable to assign bytes to boolean field",
   libStub W "SetString" [("v", goString)] none "Unable to assign string to boolean field",
   libStub W "SetUnionElem" [("v", goInt64)] none "Unable to assign union elem to boolean field",
   libStub W "Get" [("i", goInt)] (some libField) "Unable to get field from boolean field",
   libStub W "SetDefault" [("i", goInt)] none "Unable to set default on boolean field",
   libStub W "AppendMap" [("key", goString)] (some libField) "Unable to append map key to from boolean field",
   libStub W "AppendArray" [] (some libField) "Unable to append array element to from boolean field",
   libStub W "NullField" [("", goInt)] none "Unable to null field in boolean field",
   libStub W "HintSize" [("", goInt)] none "Unable to hint size in boolean field",
   libFinalize W]

/-- v10/vm/types/int.go:7-63 -/
def intMethods : List Method :=
  let W := .named "Int".toList
  [libStub W "SetBoolean" [("v", goBool)] none "Unable to assign boolean to int field",
   libSet W "SetInt" goInt32 xV,
   libStub W "SetLong" [("v", goInt64)] none "Unable to assign long to int field",
   libStub W "SetFloat" [("v", goFloat32)] none "Unable to assign float to int field",
   libStub W "SetUnionElem" [("v", goInt64)] none "Unable to assign union elem to int field",
   libStub W "SetDouble" [("v", goFloat64)] none "Unable to assign double to int field",
   libStub W "SetBytes" [("v", goBytes)] none "Unable to assign bytes to int field",
   libStub W "SetString" [("v", goString)] none "Unable to assign string to int field",
   libStub W "Get" [("i", goInt)] (some libField) "Unable to get field from int field",
   libStub W "SetDefault" [("i", goInt)] none "Unable to set default on int field",
   libStub W "AppendMap" [("key", goString)] (some libField) "Unable to append map key to from int field",
   libStub W "AppendArray" [] (some libField) "Unable to append array element to from int field",
   libStub W "NullField" [("", goInt)] none "Unable to null field in int field",
   libStub W "HintSize" [("", goInt)] none "Unable to hint size in int field",
   libFinalize W]

/-- v10/vm/types/long.go:7-63 -/
def longMethods : List Method :=
  let W := .named "Long".toList
  [libStub W "SetBoolean" [("v", goBool)] none "Unable to assign boolean to long field",
   libSet W "SetInt" goInt32 (.basic goInt64 xV),
   libSet W "SetLong" goInt64 xV,
   libStub W "SetFloat" [("v", goFloat32)] none "Unable to assign float to long field",
   libStub W "SetUnionElem" [("v", goInt64)] none "Unable to assign union elem to long field",
   libStub W "SetDouble" [("v", goFloat64)] none "Unable to assign double to long field",
   libStub W "SetBytes" [("v", goBytes)] none "Unable to assign bytes to long field",
   libStub W "SetString" [("v", goString)] none "Unable to assign string to long field",
   libStub W "Get" [("i", goInt)] (some libField) "Unable to get field from long field",
   libStub W "SetDefault" [("i", goInt)] none "Unable to set default on long field",
   libStub W "AppendMap" [("key", goString)] (some libField) "Unable to append map key to from long field",
   libStub W "AppendArray" [] (some libField) "Unable to append array element to from long field",
   libStub W "NullField" [("", goInt)] none "Unable to null field in long field",
   libStub W "HintSize" [("", goInt)] none "Unable to hint size in long field",
   libFinalize W]

/-- v10/vm/types/float.go:7-63 -/
def floatMethods : List Method :=
  let W := .named "Float".toList
  [libStub W "SetBoolean" [("v", goBool)] none "Unable to assign boolean to float field",
   libSet W "SetInt" goInt32 (.basic goFloat32 xV),
   libSet W "SetLong" goInt64 (.basic goFloat32 xV),
   libSet W "SetFloat" goFloat32 xV,
   libStub W "SetUnionElem" [("v", goInt64)] none "Unable to assign union elem to float field",
   libStub W "SetDouble" [("v", goFloat64)] none "Unable to assign double to float field",
   libStub W "SetBytes" [("v", goBytes)] none "Unable to assign double to float field",
   libStub W "SetString" [("v", goString)] none "Unable to assign double to float field",
   libStub W "Get" [("i", goInt)] (some libField) "Unable to get field from float field",
   libStub W "SetDefault" [("i", goInt)] none "Unable to set default on float field",
   libStub W "AppendMap" [("key", goString)] (some libField) "Unable to append map key to from float field",
   libStub W "AppendArray" [] (some libField) "Unable to append array element to from float field",
   libStub W "NullField" [("", goInt)] none "Unable to null field in float field",
   libStub W "HintSize" [("", goInt)] none "Unable to hint size in float field",
   libFinalize W]

/-- v10/vm/types/double.go:7-63 -/
def doubleMethods : List Method :=
  let W := .named "Double".toList
  [libStub W "SetBoolean" [("v", goBool)] none "Unable to assign boolean to double field",
   libSet W "SetInt" goInt32 (.basic goFloat64 xV),
   libSet W "SetLong" goInt64 (.basic goFloat64 xV),
   libSet W "SetFloat" goFloat32 (.basic goFloat64 xV),
   libSet W "SetDouble" goFloat64 xV,
   libStub W "SetUnionElem" [("v", goInt64)] none "Unable to assign union elem to double field",
   libStub W "SetBytes" [("v", goBytes)] none "Unable to assign bytes to double field",
   libStub W "SetString" [("v", goString)] none "Unable to assign string to double field",
   libStub W "Get" [("i", goInt)] (some libField) "Unable to get field from double field",
   libStub W "SetDefault" [("i", goInt)] none "Unable to set default on double field",
   libStub W "AppendMap" [("key", goString)] (some libField) "Unable to append map key to from double field",
   libStub W "AppendArray" [] (some libField) "Unable to append array element to from double field",
   libStub W "NullField" [("", goInt)] none "Unable to null field in double field",
   libStub W "HintSize" [("", goInt)] none "Unable to hint size in double field",
   libFinalize W]

/-- v10/vm/types/string.go:7-63 -/
def stringMethods : List Method :=
  let W := .named "String".toList
  [libStub W "SetBoolean" [("v", goBool)] none "Unable to assign boolean to string field",
   libStub W "SetInt" [("v", goInt32)] none "Unable to assign int to string field",
   libStub W "SetLong" [("v", goInt64)] none "Unable to assign long to string field",
   libStub W "SetFloat" [("v", goFloat32)] none "Unable to assign float to string field",
   libStub W "SetUnionElem" [("v", goInt64)] none "Unable to assign union elem to string field",
   libStub W "SetDouble" [("v", goFloat64)] none "Unable to assign double to string field",
   libSet W "SetBytes" goBytes (.basic goString xV),
   libSet W "SetString" goString xV,
   libStub W "Get" [("i", goInt)] (some libField) "Unable to get field from string field",
   libStub W "SetDefault" [("i", goInt)] none "Unable to set default on string field",
   libStub W "AppendMap" [("key", goString)] (some libField) "Unable to append map key to from string field",
   libStub W "AppendArray" [] (some libField) "Unable to append array element to from string field",
   libStub W "NullField" [("", goInt)] none "Unable to null field in string field",
   libStub W "HintSize" [("", goInt)] none "Unable to hint size in string field",
   libFinalize W]

/-- templates/bytes.go:30-86 -/
def bytesMethods : List Method :=
  let W := .named "BytesWrapper".toList
  [libStub W "SetBoolean" [("v", goBool)] none "Unable to assign bytes to bytes field",
   libStub W "SetInt" [("v", goInt32)] none "Unable to assign int to bytes field",
   libStub W "SetLong" [("v", goInt64)] none "Unable to assign long to bytes field",
   libStub W "SetFloat" [("v", goFloat32)] none "Unable to assign float to bytes field",
   libStub W "SetDouble" [("v", goFloat64)] none "Unable to assign double to bytes field",
   libStub W "SetUnionElem" [("v", goInt64)] none "Unable to assign union elem to bytes field",
   libSet W "SetBytes" goBytes xV,
   libSet W "SetString" goString (.basic goBytes xV),
   libStub W "Get" [("i", goInt)] (some fieldTy) "Unable to get field from bytes field",
   libStub W "SetDefault" [("i", goInt)] none "Unable to set default on bytes field",
   libStub W "AppendMap" [("key", goString)] (some fieldTy) "Unable to append map key to from bytes field",
   libStub W "AppendArray" [] (some fieldTy) "Unable to append array element to from bytes field",
   libStub W "NullField" [("", goInt)] none "Unable to null field in bytes field",
   libStub W "HintSize" [("", goInt)] none "Unable to hint size in bytes field",
   libFinalize W]

/-- The methods of the wrapper around a variable without parts, and, for `none`, those of `*types.NullVal`. -/
def libMethods : Option Leaf → List Method
  | none => nullValMethods
  | some .bool => booleanMethods
  | some .int => intMethods
  | some .long => longMethods
  | some .float => floatMethods
  | some .double => doubleMethods
  | some .string => stringMethods
  | some .bytes => bytesMethods
  | some _ => []

/-! All types -/

/-- The type that has the methods: the wrapper, or the struct itself. -/
def PTy.holder (nm : Namer) (n : NS) : PTy → Str
  | .prim _ _ => []
  | .array t d => wrapperName ((PTy.array t d).goName nm n)
  | .map t d => wrapperName ((PTy.map t d).goName nm n)
  | .union name ts d => (PTy.union name ts d).goName nm n
  | .ref q => match n.find q with
    | none => []
    | some d => match d.kind with
      | .record _ _ => d.goName nm
      | _ => wrapperName (d.goName nm)

/-- The methods that are generated for a type. -/
def PTy.methods (nm : Namer) (n : NS) : PTy → List Method
  | .prim _ _ => []
  | .array t d => arrayMethodsOf nm n (wrapperName ((PTy.array t d).goName nm n)) (goTypeOf nm n (.array t d)) t
  | .map t d => mapMethodsOf nm n (wrapperName ((PTy.map t d).goName nm n)) t
  | .union name ts d => unionMethodsOf nm n ((PTy.union name ts d).goName nm n) (goTypeOf nm n (.union name ts d)) ts
  | .ref q => match n.find q with
    | none => []
    | some d => match d.kind with
      | .record fs _ => recordMethodsOf nm n (d.goName nm) fs
      | .enum _ _ _ => enumMethodsOf (wrapperName (d.goName nm)) (d.goName nm)
      | .fixed _ => fixedMethodsOf (wrapperName (d.goName nm))

/-! ### Packages -/

/-- The wrappers of v10/vm/types and of templates/bytes.go. -/
def foreignLeaf (ty : GoTy) : Option Leaf :=
  if ty = .of "types".toList "Boolean".toList then some .bool
  else if ty = .of "types".toList "Int".toList then some .int
  else if ty = .of "types".toList "Long".toList then some .long
  else if ty = .of "types".toList "Float".toList then some .float
  else if ty = .of "types".toList "Double".toList then some .double
  else if ty = .of "types".toList "String".toList then some .string
  else if ty = .named "BytesWrapper".toList then some .bytes
  else none

/-- The struct of a type: templates/record.go:17-26, union.go:24-29. -/
def PTy.struct (nm : Namer) (n : NS) : PTy → Option StructTy
  | .union _ ts _ => some ⟨ts.map fun t => (t.goName nm n, goTypeOf nm n t), true⟩
  | .ref q => match n.find q with
    | none => none
    | some d => match d.kind with
      | .record fs _ => some ⟨fs.map fun f => (fieldGoName nm f.name, goTypeOf nm n f.ty), false⟩
      | _ => none
  | _ => none

/-- The package holds what is generated for a type, under names that mean nothing else. -/
structure Carries (P : Pack) (nm : Namer) (n : NS) (t : PTy) : Prop where
  resolved : ∀ q, t = .ref q → ∃ d, n.find q = some d
  methods : ∀ m ∈ t.methods nm n, P.methods (t.holder nm n) m.name = some m
  keyed : ∀ W, t.wrapper nm n = some W → P.keyed W = t.isMap
  own : ∀ W, t.wrapper nm n = some (.named W) → (∀ p d, t ≠ .prim p d) → foreignLeaf (.named W) = none
  struct : ∀ s, t.struct nm n = some s → P.structs (t.goName nm n) = some s ∧ (s.fields.map (·.1)).Nodup ∧ "UnionType".toList ∉ s.fields.map (·.1)
  array : ∀ q d k, t = .ref q → n.find q = some d → d.kind = .fixed k → P.arrays (t.goName nm n) = some k.toNat
  ctor : ∀ f, t.ctor nm n = some (.call f) → P.funcs f = some (goTypeOf nm n t, memNew n.env t.erase)

/-! ### Calls -/

/-- What a target that is `types.Record` hands its calls to, v10/vm/types/record.go. -/
def inner : Gv → Gv
  | .lit ty t => if ty = recordTy then t else .lit ty t
  | g => g

/-- The name of the type of a target. -/
def typeName : Gv → Option Str
  | .lit (.named T) _ => some T
  | .keyed (.named T) _ _ => some T
  | .ptr (.named T) _ => some T
  | _ => none

/-- A method of a target is called. An outcome `unknownInstr`, which `vm.Eval` never has otherwise, stands for a
program that does not fit together. -/
def Spec.GoT.Pack.invoke (P : Pack) (m : String) (args : List Gv) (g : Gv) (h : Mem) : Except Err (Option Gv × Mem) :=
  match typeName (inner g) with
  | none => .error .unknownInstr
  | some T => match P.methods T m.toList with
    | none => .error .unknownInstr
    | some f => match f.run P (inner g) args h with
      | .ok x => .ok x
      | .error .panic => .error .panic
      | .error .stuck => .error .unknownInstr

/-- A method without a result. -/
def Spec.GoT.Pack.void (P : Pack) (m : String) (args : List Gv) (g : Gv) (h : Mem) : Except Err (Gv × Mem) :=
  match P.invoke m args g h with
  | .error e => .error e
  | .ok (_, h') => .ok (g, h')

/-- A method that returns a target. -/
def Spec.GoT.Pack.opens (P : Pack) (m : String) (args : List Gv) (g : Gv) (h : Mem) : Except Err (Gv × Mem) :=
  match P.invoke m args g h with
  | .error e => .error e
  | .ok (some g', h') => .ok (g', h')
  | .ok (none, _) => .error .unknownInstr

/-- A target that is not generated: the nil `*types.NullVal`, or a wrapper around a pointer. -/
def foreign : Gv → Option (Option (Leaf × Place))
  | .nullVal => some none
  | .lit ty (.ptr _ p) => (foreignLeaf ty).map fun l => some (l, p)
  | _ => none

/-- A method of such a target is called. -/
def Spec.GoT.Pack.lib (P : Pack) (x : Option (Leaf × Place)) (m : String) (args : List Gv) (g : Gv) (h : Mem) : Except Err (Option Gv × Mem) :=
  match (libMethods (x.map (·.1))).find? fun f => decide (f.name = m.toList) with
  | none => .error .unknownInstr
  | some f => match f.run P g args h with
    | .ok x => .ok x
    | .error .panic => .error .panic
    | .error .stuck => .error .unknownInstr

/-- A method without a result. -/
def Spec.GoT.Pack.does (P : Pack) (m : String) (args : List Gv) (s : Gv × Mem) : Except Err (Gv × Mem) :=
  match foreign s.1 with
  | some x => match P.lib x m args s.1 s.2 with
    | .error e => .error e
    | .ok (_, h) => .ok (s.1, h)
  | none => P.void m args s.1 s.2

/-- A method that returns a target. -/
def Spec.GoT.Pack.gets (P : Pack) (m : String) (args : List Gv) (s : Gv × Mem) : Except Err (Gv × Mem) :=
  match foreign s.1 with
  | some x => match P.lib x m args s.1 s.2 with
    | .error e => .error e
    | .ok (some g, h) => .ok (g, h)
    | .ok (none, _) => .error .unknownInstr
  | none => P.opens m args s.1 s.2

/-- `SetDefault`: for the structs of records `dflt`, for others the method. -/
def Spec.GoT.Pack.setDefault (P : Pack) (dflt : Str → Option (Place → Int → Mem → Except Err Mem)) (s : Gv × Mem) (i : Int) : Except Err (Gv × Mem) :=
  match foreign s.1 with
  | some _ => P.does "SetDefault" [.int i] s
  | none => match inner s.1 with
    | .ptr (.named T) p => match dflt T with
      | some f => match f p i s.2 with
        | .error e => .error e
        | .ok h => .ok (s.1, h)
      | none => P.void "SetDefault" [.int i] s.1 s.2
    | _ => P.void "SetDefault" [.int i] s.1 s.2

/-- The targets of a package, as `vm.Eval` uses them (v10/vm/types/field.go). -/
def Spec.GoT.Pack.ops (P : Pack) (dflt : Str → Option (Place → Int → Mem → Except Err Mem)) : FieldOps (Gv × Mem) where
  setBoolean s v := P.does "SetBoolean" [.bool v] s
  setInt s v := P.does "SetInt" [.int32 v] s
  setLong s v := P.does "SetLong" [.int64 v] s
  setFloat s v := P.does "SetFloat" [.float32 v] s
  setDouble s v := P.does "SetDouble" [.float64 v] s
  setBytes s v := P.does "SetBytes" [.bytes v] s
  setString s v := P.does "SetString" [.str v] s
  get s i := P.gets "Get" [.int i] s
  put s _ sub := (s.1, sub.2)
  setDefault := P.setDefault dflt
  appendMap s k := P.gets "AppendMap" [.str k] s
  putMap s _ sub := (s.1, sub.2)
  appendArray s := P.gets "AppendArray" [] s
  putArray s sub := (s.1, sub.2)
  nullField s i := P.does "NullField" [.int i] s
  hintSize s c := P.does "HintSize" [.int c.toInt] s
  finalize s := P.does "Finalize" [] s
end Verif
