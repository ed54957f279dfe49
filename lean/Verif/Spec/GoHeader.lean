import Verif.Spec.GoDecl
/-
The tokens of a Go source file that begins with comments (The Go Programming Language Specification, Comments). Spec/GoText reads a source without general comments, those between `/*` and `*/`.
-/
set_option autoImplicit false
namespace Verif.Spec.Go
open Verif

/-- What follows the end of a general comment. -/
def skipBlock : Str → Option Str
  | [] => none
  | c :: s => if c = '*' ∧ s.head? = some '/' then some s.tail else skipBlock s

/-- What follows the comments and empty lines at the beginning of a file. The first argument bounds the number of steps. -/
def skipHeader : Nat → Str → Option Str
  | 0, _ => none
  | _ + 1, [] => some []
  | n + 1, c :: s =>
    if c = '\n' then skipHeader n s
    else if c = '/' ∧ s.head? = some '/' then skipHeader n (s.dropWhile (· ≠ '\n'))
    else if c = '/' ∧ s.head? = some '*' then (skipBlock s.tail).bind (skipHeader n)
    else some (c :: s)

/-- The tokens of a source file with general comments at its beginning only. -/
def sourceTokens (s : Str) : Option (List Tok) := if s.any forbidden then none else (skipHeader (s.length + 1) s).bind tokens

end Verif.Spec.Go
