import Verif.Gen.Methods
/-
The texts of the methods that do not depend on the schema: the files of v10/vm/types, line by line, and the lines of
v10/generator/flat/templates/bytes.go that declare the wrapper around a variable of bytes. tools/check_texts.py compares
these definitions with the files.
-/
namespace Verif
open Spec Spec.Go

/-- The text made of the lines. -/
def linesText (l : List String) : Str := l.flatMap fun s => s.toList ++ ['\n']

/-- v10/vm/types/null.go:1-61 -/
def nullGoText : Str := linesText [
  "package types",
  "",
  "type NullVal struct{}",
  "",
  "func (b *NullVal) SetBoolean(v bool) {",
  "\tpanic(\"Unable to assign boolean to null field\")",
  "}",
  "",
  "func (b *NullVal) SetInt(v int32) {",
  "\tpanic(\"Unable to assign boolean to null field\")",
  "}",
  "",
  "func (b *NullVal) SetLong(v int64) {",
  "\tpanic(\"Unable to assign long to null field\")",
  "}",
  "",
  "func (b *NullVal) SetFloat(v float32) {",
  "\tpanic(\"Unable to assign float to null field\")",
  "}",
  "",
  "func (b *NullVal) SetUnionElem(v int64) {",
  "\tpanic(\"Unable to assign union elem to null field\")",
  "}",
  "",
  "func (b *NullVal) SetDouble(v float64) {",
  "\tpanic(\"Unable to assign double to null field\")",
  "}",
  "",
  "func (b *NullVal) SetBytes(v []byte) {",
  "\tpanic(\"Unable to assign bytes to null field\")",
  "}",
  "",
  "func (b *NullVal) SetString(v string) {",
  "\tpanic(\"Unable to assign string to null field\")",
  "}",
  "",
  "func (b *NullVal) Get(i int) Field {",
  "\tpanic(\"Unable to get field from null field\")",
  "}",
  "",
  "func (b *NullVal) SetDefault(i int) {",
  "\tpanic(\"Unable to set default on null field\")",
  "}",
  "",
  "func (b *NullVal) AppendMap(key string) Field {",
  "\tpanic(\"Unable to append map key to from null field\")",
  "}",
  "",
  "func (b *NullVal) AppendArray() Field {",
  "\tpanic(\"Unable to append array element to from null field\")",
  "}",
  "",
  "func (b *NullVal) NullField(int) {",
  "\tpanic(\"Unable to null field in null field\")",
  "}",
  "",
  "func (b *NullVal) HintSize(int) {",
  "\tpanic(\"Unable to hint size in null field\")",
  "}",
  "",
  "func (b *NullVal) Finalize() {}"]

/-- v10/vm/types/boolean.go:1-63 -/
def booleanGoText : Str := linesText [
  "package types",
  "",
  "type Boolean struct {",
  "\tTarget *bool",
  "}",
  "",
  "func (b Boolean) SetBoolean(v bool) {",
  "\t*(b.Target) = v",
  "}",
  "",
  "func (b Boolean) SetInt(v int32) {",
  "\tpanic(\"Unable to assign int to boolean field\")",
  "}",
  "",
  "func (b Boolean) SetLong(v int64) {",
  "\tpanic(\"Unable to assign long to boolean field\")",
  "}",
  "",
  "func (b Boolean) SetFloat(v float32) {",
  "\tpanic(\"Unable to assign float to boolean field\")",
  "}",
  "",
  "func (b Boolean) SetDouble(v float64) {",
  "\tpanic(\"Unable to assign double to boolean field\")",
  "}",
  "",
  "func (b Boolean) SetBytes(v []byte) {",
  "\tpanic(\"Unable to assign bytes to boolean field\")",
  "}",
  "",
  "func (b Boolean) SetString(v string) {",
  "\tpanic(\"Unable to assign string to boolean field\")",
  "}",
  "",
  "func (b Boolean) SetUnionElem(v int64) {",
  "\tpanic(\"Unable to assign union elem to boolean field\")",
  "}",
  "",
  "func (b Boolean) Get(i int) Field {",
  "\tpanic(\"Unable to get field from boolean field\")",
  "}",
  "",
  "func (b Boolean) SetDefault(i int) {",
  "\tpanic(\"Unable to set default on boolean field\")",
  "}",
  "",
  "func (b Boolean) AppendMap(key string) Field {",
  "\tpanic(\"Unable to append map key to from boolean field\")",
  "}",
  "",
  "func (b Boolean) AppendArray() Field {",
  "\tpanic(\"Unable to append array element to from boolean field\")",
  "}",
  "",
  "func (b Boolean) NullField(int) {",
  "\tpanic(\"Unable to null field in boolean field\")",
  "}",
  "",
  "func (b Boolean) HintSize(int) {",
  "\tpanic(\"Unable to hint size in boolean field\")",
  "}",
  "",
  "func (b Boolean) Finalize() {}"]

/-- v10/vm/types/int.go:1-63 -/
def intGoText : Str := linesText [
  "package types",
  "",
  "type Int struct {",
  "\tTarget *int32",
  "}",
  "",
  "func (b Int) SetBoolean(v bool) {",
  "\tpanic(\"Unable to assign boolean to int field\")",
  "}",
  "",
  "func (b Int) SetInt(v int32) {",
  "\t*(b.Target) = v",
  "}",
  "",
  "func (b Int) SetLong(v int64) {",
  "\tpanic(\"Unable to assign long to int field\")",
  "}",
  "",
  "func (b Int) SetFloat(v float32) {",
  "\tpanic(\"Unable to assign float to int field\")",
  "}",
  "",
  "func (b Int) SetUnionElem(v int64) {",
  "\tpanic(\"Unable to assign union elem to int field\")",
  "}",
  "",
  "func (b Int) SetDouble(v float64) {",
  "\tpanic(\"Unable to assign double to int field\")",
  "}",
  "",
  "func (b Int) SetBytes(v []byte) {",
  "\tpanic(\"Unable to assign bytes to int field\")",
  "}",
  "",
  "func (b Int) SetString(v string) {",
  "\tpanic(\"Unable to assign string to int field\")",
  "}",
  "",
  "func (b Int) Get(i int) Field {",
  "\tpanic(\"Unable to get field from int field\")",
  "}",
  "",
  "func (b Int) SetDefault(i int) {",
  "\tpanic(\"Unable to set default on int field\")",
  "}",
  "",
  "func (b Int) AppendMap(key string) Field {",
  "\tpanic(\"Unable to append map key to from int field\")",
  "}",
  "",
  "func (b Int) AppendArray() Field {",
  "\tpanic(\"Unable to append array element to from int field\")",
  "}",
  "",
  "func (b Int) NullField(int) {",
  "\tpanic(\"Unable to null field in int field\")",
  "}",
  "",
  "func (b Int) HintSize(int) {",
  "\tpanic(\"Unable to hint size in int field\")",
  "}",
  "",
  "func (b Int) Finalize() {}"]

/-- v10/vm/types/long.go:1-63 -/
def longGoText : Str := linesText [
  "package types",
  "",
  "type Long struct {",
  "\tTarget *int64",
  "}",
  "",
  "func (b Long) SetBoolean(v bool) {",
  "\tpanic(\"Unable to assign boolean to long field\")",
  "}",
  "",
  "func (b Long) SetInt(v int32) {",
  "\t*(b.Target) = int64(v)",
  "}",
  "",
  "func (b Long) SetLong(v int64) {",
  "\t*(b.Target) = v",
  "}",
  "",
  "func (b Long) SetFloat(v float32) {",
  "\tpanic(\"Unable to assign float to long field\")",
  "}",
  "",
  "func (b Long) SetUnionElem(v int64) {",
  "\tpanic(\"Unable to assign union elem to long field\")",
  "}",
  "",
  "func (b Long) SetDouble(v float64) {",
  "\tpanic(\"Unable to assign double to long field\")",
  "}",
  "",
  "func (b Long) SetBytes(v []byte) {",
  "\tpanic(\"Unable to assign bytes to long field\")",
  "}",
  "",
  "func (b Long) SetString(v string) {",
  "\tpanic(\"Unable to assign string to long field\")",
  "}",
  "",
  "func (b Long) Get(i int) Field {",
  "\tpanic(\"Unable to get field from long field\")",
  "}",
  "",
  "func (b Long) SetDefault(i int) {",
  "\tpanic(\"Unable to set default on long field\")",
  "}",
  "",
  "func (b Long) AppendMap(key string) Field {",
  "\tpanic(\"Unable to append map key to from long field\")",
  "}",
  "",
  "func (b Long) AppendArray() Field {",
  "\tpanic(\"Unable to append array element to from long field\")",
  "}",
  "",
  "func (b Long) NullField(int) {",
  "\tpanic(\"Unable to null field in long field\")",
  "}",
  "",
  "func (b Long) HintSize(int) {",
  "\tpanic(\"Unable to hint size in long field\")",
  "}",
  "",
  "func (b Long) Finalize() {}"]

/-- v10/vm/types/float.go:1-63 -/
def floatGoText : Str := linesText [
  "package types",
  "",
  "type Float struct {",
  "\tTarget *float32",
  "}",
  "",
  "func (b Float) SetBoolean(v bool) {",
  "\tpanic(\"Unable to assign boolean to float field\")",
  "}",
  "",
  "func (b Float) SetInt(v int32) {",
  "\t*(b.Target) = float32(v)",
  "}",
  "",
  "func (b Float) SetLong(v int64) {",
  "\t*(b.Target) = float32(v)",
  "}",
  "",
  "func (b Float) SetFloat(v float32) {",
  "\t*(b.Target) = v",
  "}",
  "",
  "func (b Float) SetUnionElem(v int64) {",
  "\tpanic(\"Unable to assign union elem to float field\")",
  "}",
  "",
  "func (b Float) SetDouble(v float64) {",
  "\tpanic(\"Unable to assign double to float field\")",
  "}",
  "",
  "func (b Float) SetBytes(v []byte) {",
  "\tpanic(\"Unable to assign double to float field\")",
  "}",
  "",
  "func (b Float) SetString(v string) {",
  "\tpanic(\"Unable to assign double to float field\")",
  "}",
  "",
  "func (b Float) Get(i int) Field {",
  "\tpanic(\"Unable to get field from float field\")",
  "}",
  "",
  "func (b Float) SetDefault(i int) {",
  "\tpanic(\"Unable to set default on float field\")",
  "}",
  "",
  "func (b Float) AppendMap(key string) Field {",
  "\tpanic(\"Unable to append map key to from float field\")",
  "}",
  "",
  "func (b Float) AppendArray() Field {",
  "\tpanic(\"Unable to append array element to from float field\")",
  "}",
  "",
  "func (b Float) NullField(int) {",
  "\tpanic(\"Unable to null field in float field\")",
  "}",
  "",
  "func (b Float) HintSize(int) {",
  "\tpanic(\"Unable to hint size in float field\")",
  "}",
  "",
  "func (b Float) Finalize() {}"]

/-- v10/vm/types/double.go:1-63 -/
def doubleGoText : Str := linesText [
  "package types",
  "",
  "type Double struct {",
  "\tTarget *float64",
  "}",
  "",
  "func (b Double) SetBoolean(v bool) {",
  "\tpanic(\"Unable to assign boolean to double field\")",
  "}",
  "",
  "func (b Double) SetInt(v int32) {",
  "\t*(b.Target) = float64(v)",
  "}",
  "",
  "func (b Double) SetLong(v int64) {",
  "\t*(b.Target) = float64(v)",
  "}",
  "",
  "func (b Double) SetFloat(v float32) {",
  "\t*(b.Target) = float64(v)",
  "}",
  "",
  "func (b Double) SetDouble(v float64) {",
  "\t*(b.Target) = v",
  "}",
  "",
  "func (b Double) SetUnionElem(v int64) {",
  "\tpanic(\"Unable to assign union elem to double field\")",
  "}",
  "",
  "func (b Double) SetBytes(v []byte) {",
  "\tpanic(\"Unable to assign bytes to double field\")",
  "}",
  "",
  "func (b Double) SetString(v string) {",
  "\tpanic(\"Unable to assign string to double field\")",
  "}",
  "",
  "func (b Double) Get(i int) Field {",
  "\tpanic(\"Unable to get field from double field\")",
  "}",
  "",
  "func (b Double) SetDefault(i int) {",
  "\tpanic(\"Unable to set default on double field\")",
  "}",
  "",
  "func (b Double) AppendMap(key string) Field {",
  "\tpanic(\"Unable to append map key to from double field\")",
  "}",
  "",
  "func (b Double) AppendArray() Field {",
  "\tpanic(\"Unable to append array element to from double field\")",
  "}",
  "",
  "func (b Double) NullField(int) {",
  "\tpanic(\"Unable to null field in double field\")",
  "}",
  "",
  "func (b Double) HintSize(int) {",
  "\tpanic(\"Unable to hint size in double field\")",
  "}",
  "",
  "func (b Double) Finalize() {}"]

/-- v10/vm/types/string.go:1-63 -/
def stringGoText : Str := linesText [
  "package types",
  "",
  "type String struct {",
  "\tTarget *string",
  "}",
  "",
  "func (b String) SetBoolean(v bool) {",
  "\tpanic(\"Unable to assign boolean to string field\")",
  "}",
  "",
  "func (b String) SetInt(v int32) {",
  "\tpanic(\"Unable to assign int to string field\")",
  "}",
  "",
  "func (b String) SetLong(v int64) {",
  "\tpanic(\"Unable to assign long to string field\")",
  "}",
  "",
  "func (b String) SetFloat(v float32) {",
  "\tpanic(\"Unable to assign float to string field\")",
  "}",
  "",
  "func (b String) SetUnionElem(v int64) {",
  "\tpanic(\"Unable to assign union elem to string field\")",
  "}",
  "",
  "func (b String) SetDouble(v float64) {",
  "\tpanic(\"Unable to assign double to string field\")",
  "}",
  "",
  "func (b String) SetBytes(v []byte) {",
  "\t*(b.Target) = string(v)",
  "}",
  "",
  "func (b String) SetString(v string) {",
  "\t*(b.Target) = v",
  "}",
  "",
  "func (b String) Get(i int) Field {",
  "\tpanic(\"Unable to get field from string field\")",
  "}",
  "",
  "func (b String) SetDefault(i int) {",
  "\tpanic(\"Unable to set default on string field\")",
  "}",
  "",
  "func (b String) AppendMap(key string) Field {",
  "\tpanic(\"Unable to append map key to from string field\")",
  "}",
  "",
  "func (b String) AppendArray() Field {",
  "\tpanic(\"Unable to append array element to from string field\")",
  "}",
  "",
  "func (b String) NullField(int) {",
  "\tpanic(\"Unable to null field in string field\")",
  "}",
  "",
  "func (b String) HintSize(int) {",
  "\tpanic(\"Unable to hint size in string field\")",
  "}",
  "",
  "func (b String) Finalize() {}"]

/-- v10/vm/types/record.go:1-61 -/
def recordGoText : Str := linesText [
  "package types",
  "",
  "type Record struct {",
  "\tTarget Field",
  "}",
  "",
  "func (b Record) SetBoolean(v bool) {",
  "\tb.Target.SetBoolean(v)",
  "}",
  "",
  "func (b Record) SetInt(v int32) {",
  "\tb.Target.SetInt(v)",
  "}",
  "",
  "func (b Record) SetLong(v int64) {",
  "\tb.Target.SetLong(v)",
  "}",
  "",
  "func (b Record) SetFloat(v float32) {",
  "\tb.Target.SetFloat(v)",
  "}",
  "",
  "func (b Record) SetDouble(v float64) {",
  "\tb.Target.SetDouble(v)",
  "}",
  "",
  "func (b Record) SetBytes(v []byte) {",
  "\tb.Target.SetBytes(v)",
  "}",
  "",
  "func (b Record) SetString(v string) {",
  "\tb.Target.SetString(v)",
  "}",
  "",
  "func (b Record) Get(i int) Field {",
  "\treturn b.Target.Get(i)",
  "}",
  "",
  "func (b Record) SetDefault(i int) {",
  "\tb.Target.SetDefault(i)",
  "}",
  "",
  "func (b Record) AppendMap(key string) Field {",
  "\treturn b.Target.AppendMap(key)",
  "}",
  "",
  "func (b Record) AppendArray() Field {",
  "\treturn b.Target.AppendArray()",
  "}",
  "",
  "func (b Record) NullField(v int) {",
  "\tb.Target.NullField(v)",
  "}",
  "",
  "func (b Record) HintSize(v int) {",
  "\tb.Target.HintSize(v)",
  "}",
  "",
  "func (b Record) Finalize() {",
  "\tb.Target.Finalize()",
  "}"]

/-- v10/generator/flat/templates/bytes.go:26-86 -/
def bytesWrapperText : Str := linesText [
  "type BytesWrapper struct {",
  "\tTarget *Bytes",
  "}",
  "",
  "func (b BytesWrapper) SetBoolean(v bool) {",
  "\tpanic(\"Unable to assign bytes to bytes field\")",
  "}",
  "",
  "func (b BytesWrapper) SetInt(v int32) {",
  "\tpanic(\"Unable to assign int to bytes field\")",
  "}",
  "",
  "func (b BytesWrapper) SetLong(v int64) {",
  "\tpanic(\"Unable to assign long to bytes field\")",
  "}",
  "",
  "func (b BytesWrapper) SetFloat(v float32) {",
  "\tpanic(\"Unable to assign float to bytes field\")",
  "}",
  "",
  "func (b BytesWrapper) SetDouble(v float64) {",
  "\tpanic(\"Unable to assign double to bytes field\")",
  "}",
  "",
  "func (b BytesWrapper) SetUnionElem(v int64) {",
  "\tpanic(\"Unable to assign union elem to bytes field\")",
  "}",
  "",
  "func (b BytesWrapper) SetBytes(v []byte) {",
  "\t*(b.Target) = v",
  "}",
  "",
  "func (b BytesWrapper) SetString(v string) {",
  "\t*(b.Target) = []byte(v)",
  "}",
  "",
  "func (b BytesWrapper) Get(i int) types.Field {",
  "\tpanic(\"Unable to get field from bytes field\")",
  "}",
  "",
  "func (b BytesWrapper) SetDefault(i int) {",
  "\tpanic(\"Unable to set default on bytes field\")",
  "}",
  "",
  "func (b BytesWrapper) AppendMap(key string) types.Field {",
  "\tpanic(\"Unable to append map key to from bytes field\")",
  "}",
  "",
  "func (b BytesWrapper) AppendArray() types.Field {",
  "\tpanic(\"Unable to append array element to from bytes field\")",
  "}",
  "",
  "func (b BytesWrapper) NullField(int) {",
  "\tpanic(\"Unable to null field in bytes field\")",
  "}",
  "",
  "func (b BytesWrapper) HintSize(int) {",
  "\tpanic(\"Unable to hint size in bytes field\")",
  "}",
  "",
  "func (b BytesWrapper) Finalize() {}"]

/-! Declarations -/

/-- `package types` -/
def packageTypes : List Tok := [w "package", w "types", .sign ';']

/-- The declaration of a type whose values hold a pointer to a variable. -/
def targetStruct (name : String) (ty : GoTy) : List Tok := structToks name.toList [⟨"Target".toList, ty, none⟩]

/-- v10/vm/types/record.go: a method that calls the one of the same name of the target it holds. The arguments are the
parameters, and the result is the result. -/
def forwardToks (name : String) (params : List (String × GoTy)) (result : Option GoTy) : List Tok :=
  w "func" :: .sign '(' :: w "b" :: w "Record" :: .sign ')' :: w name :: .sign '(' ::
    (Spec.GoT.commas (params.map fun p => Spec.GoT.paramToks (p.1.toList, p.2)) ++ .sign ')' :: (Spec.GoT.resultToks result ++ .sign '{' ::
    ((if result.isSome then [w "return"] else []) ++ w "b" :: .sign '.' :: w "Target" :: .sign '.' :: w name :: .sign '(' ::
      (Spec.GoT.commas (params.map fun p => [w p.1]) ++ [.sign ')', .sign ';', .sign '}', .sign ';']))))

/-- v10/vm/types/field.go:6-33: the methods of a target, with parameters as in record.go and results. -/
def fieldMethods : List (String × List (String × GoTy) × Option GoTy) :=
  [("SetBoolean", [("v", goBool)], none), ("SetInt", [("v", goInt32)], none), ("SetLong", [("v", goInt64)], none),
   ("SetFloat", [("v", goFloat32)], none), ("SetDouble", [("v", goFloat64)], none), ("SetBytes", [("v", goBytes)], none),
   ("SetString", [("v", goString)], none), ("Get", [("i", goInt)], some libField), ("SetDefault", [("i", goInt)], none),
   ("AppendMap", [("key", goString)], some libField), ("AppendArray", [], some libField), ("NullField", [("v", goInt)], none),
   ("HintSize", [("v", goInt)], none), ("Finalize", [], none)]

end Verif
