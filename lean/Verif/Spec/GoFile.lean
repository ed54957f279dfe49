import Verif.Spec.GoDecl
/-
The declarations of a Go source file and the names that they declare in the package, read from its tokens. After each declaration stands a
semicolon, which the lexer adds at the end of the line (The Go Programming Language Specification, Semicolons; Source file organization).
-/
namespace Verif.Spec.Go
open Verif

def opens (c : Char) : Bool := c == '(' || c == '[' || c == '{'
def closes (c : Char) : Bool := c == ')' || c == ']' || c == '}'

/-- Cut behind each semicolon that stands outside of all brackets. `d` is the number of open brackets, `acc` what
was read since the last cut. -/
def cut : Nat → List Tok → List Tok → List (List Tok)
  | _, _, [] => []
  | d, acc, .sign c :: us =>
    if opens c then cut (d + 1) (acc ++ [.sign c]) us
    else if closes c then cut (d - 1) (acc ++ [.sign c]) us
    else if c = ';' ∧ d = 0 then (acc ++ [.sign c]) :: cut 0 [] us
    else cut d (acc ++ [.sign c]) us
  | d, acc, .word x :: us => cut d (acc ++ [.word x]) us
  | d, acc, .text v :: us => cut d (acc ++ [.text v]) us

/-- The first word, if there is one in the first place. -/
def firstWord : List Tok → Option Str
  | .word x :: _ => some x
  | _ => none

/-- The names that a declaration declares in the package: a type, a function, a constant or a group of constants. Methods, imports and
`var _` declare none. Other declarations do not occur. -/
def declared : List Tok → List Str
  | .word k :: .word x :: _ => if k = "type".toList ∨ k = "func".toList ∨ k = "const".toList ∨ (k = "var".toList ∧ x ≠ "_".toList) then [x] else []
  | .word k :: .sign c :: us => if k = "const".toList ∧ c = '(' then (cut 0 [] us).filterMap firstWord else []
  | _ => []

/-- The names that a file declares in the package. -/
def topNames (us : List Tok) : List Str := (cut 0 [] us).flatMap declared

end Verif.Spec.Go
