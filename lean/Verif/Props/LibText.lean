import Verif.Gen.LibText
import Verif.Props.Methods
/-
C99: the methods that do not depend on the schema are, token for token, the programs that Props/Methods runs for the
wrappers around variables without parts. The texts are those of v10/vm/types and of templates/bytes.go.
-/
namespace Verif.Props
open Verif Spec Spec.Go Spec.GoT

/-- The file of v10/vm/types for a wrapper: package, declaration and methods. -/
def libFile (decl : List Tok) (ms : List Method) : List Tok := packageTypes ++ (decl ++ ms.flatMap Method.toks)

/-- C99: v10/vm/types/null.go -/
theorem null_text : tokens nullGoText = some (libFile (structToks "NullVal".toList []) (libMethods none)) := by decide +kernel

/-- C99: v10/vm/types/boolean.go -/
theorem boolean_text : tokens booleanGoText = some (libFile (targetStruct "Boolean" (.pointer goBool)) (libMethods (some .bool))) := by decide +kernel

/-- C99: v10/vm/types/int.go -/
theorem int_text : tokens intGoText = some (libFile (targetStruct "Int" (.pointer goInt32)) (libMethods (some .int))) := by decide +kernel

/-- C99: v10/vm/types/long.go -/
theorem long_text : tokens longGoText = some (libFile (targetStruct "Long" (.pointer goInt64)) (libMethods (some .long))) := by decide +kernel

/-- C99: v10/vm/types/float.go -/
theorem float_text : tokens floatGoText = some (libFile (targetStruct "Float" (.pointer goFloat32)) (libMethods (some .float))) := by decide +kernel

/-- C99: v10/vm/types/double.go -/
theorem double_text : tokens doubleGoText = some (libFile (targetStruct "Double" (.pointer goFloat64)) (libMethods (some .double))) := by decide +kernel

/-- C99: v10/vm/types/string.go -/
theorem string_text : tokens stringGoText = some (libFile (targetStruct "String" (.pointer goString)) (libMethods (some .string))) := by decide +kernel

/-- C99: the wrapper around bytes in templates/bytes.go. -/
theorem bytesWrapper_text : tokens bytesWrapperText =
    some (targetStruct "BytesWrapper" (.pointer (.named "Bytes".toList)) ++ (libMethods (some .bytes)).flatMap Method.toks) := by decide +kernel

/-- C99: v10/vm/types/record.go. Every method of a target is passed on to the target that the record holds. -/
theorem record_text : tokens recordGoText =
    some (packageTypes ++ (targetStruct "Record" libField ++ fieldMethods.flatMap fun m => forwardToks m.1 m.2.1 m.2.2)) := by decide +kernel

end Verif.Props
