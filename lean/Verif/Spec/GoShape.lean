import Verif.Gen.Names
import Verif.Spec.GoDecl
import Verif.Spec.GoNames
/-
Which Go type stands for a schema type, as the project's README lists them, and which schemas have names
that Avro allows.
-/
namespace Verif.Spec.Go
open Verif Verif.Spec

/-- A member of a union that stands for "no value". -/
def nullTy : PTy → Bool
  | .prim .null _ => true
  | _ => false

/-- The Go types of the primitive types. -/
def primType : Prim → GoTy
  | .null => .pointer (.of "types".toList "NullVal".toList)
  | .bool => .named "bool".toList
  | .int => .named "int32".toList
  | .long => .named "int64".toList
  | .float => .named "float32".toList
  | .double => .named "float64".toList
  | .bytes => .named "Bytes".toList
  | .string => .named "string".toList

/-- The Go type of a schema type. -/
def goTypeOf (nm : Namer) (n : NS) : PTy → GoTy
  | .prim p _ => primType p
  | .array t _ => .slice (goTypeOf nm n t)
  | .map t _ => .dict (goTypeOf nm n t)
  | .union name ts d =>
    if ts.any nullTy then .pointer (.named ((PTy.union name ts d).goName nm n)) else .named ((PTy.union name ts d).goName nm n)
  | .ref q => .named ((PTy.ref q).goName nm n)

mutual
/-- The definitions and unions that the type names have names that Avro allows. -/
def NamedTy (n : NS) : PTy → Prop
  | .prim _ _ => True
  | .array t _ => NamedTy n t
  | .map t _ => NamedTy n t
  | .union name ts _ => (name = [] ∨ Dotted name) ∧ NamedTys n ts
  | .ref q => ∃ d, n.find q = some d ∧ Dotted d.name.str
def NamedTys (n : NS) : List PTy → Prop
  | [] => True
  | t :: ts => NamedTy n t ∧ NamedTys n ts
end

end Verif.Spec.Go
