import Verif.Spec.GoFile
/-
The packages that a Go source file imports, and those that it refers to. Go refuses a file with an import that is not used, or with two of one name
(The Go Programming Language Specification, Import declarations).
-/
set_option autoImplicit false
namespace Verif.Spec.Go
open Verif

/-- The strings before the next closing parenthesis. -/
def textsUntil : List Tok → List (List Byte)
  | .text v :: us => v :: textsUntil us
  | .sign c :: us => if c = ')' then [] else textsUntil us
  | .word _ :: us => textsUntil us
  | [] => []

/-- The paths in the import declaration with which a file begins: `import ( "path"; "path"; … )`. Generated files have one. -/
def importPaths : List Tok → List (List Byte)
  | .word k :: .sign c :: us => if k = "import".toList ∧ c = '(' then textsUntil us else []
  | _ => []

/-- What stands behind the last `/`: the name by which the file refers to the package (for all packages that are imported here). -/
def lastPart (path : List Byte) : List Byte := (path.reverse.takeWhile fun b => b ≠ 47#8).reverse

/-- The file refers to the package of this name: the name stands before a point and behind none. -/
def Refers (us : List Tok) (x : Str) : Prop := ∃ u, u ≠ .sign '.' ∧ [u, .word x, .sign '.'] <:+: us

end Verif.Spec.Go
