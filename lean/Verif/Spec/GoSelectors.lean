import Verif.Spec.GoFile
/-
The members and the methods of a struct type. Go refuses a type with two of them of one name (The Go Programming Language Specification, Struct types, Method declarations).
-/
set_option autoImplicit false
namespace Verif.Spec.Go
open Verif

/-- What a declaration adds to the members and methods of the type `x`: the members in `type x struct { … }`, and the method in `func (r x) name` and `func (r *x) name`. -/
def selectors (x : Str) : List Tok → List Str
  | .word k :: .word y :: .word s :: .sign c :: us =>
    if k = "type".toList ∧ y = x ∧ s = "struct".toList ∧ c = '{' then (cut 0 [] us).filterMap firstWord else []
  | .word k :: .sign c :: .word _ :: .word y :: .sign e :: .word m :: _ =>
    if k = "func".toList ∧ c = '(' ∧ y = x ∧ e = ')' then [m] else []
  | .word k :: .sign c :: .word _ :: .sign p :: .word y :: .sign e :: .word m :: _ =>
    if k = "func".toList ∧ c = '(' ∧ p = '*' ∧ y = x ∧ e = ')' then [m] else []
  | _ => []

/-- The members and methods that a file declares for the type `x`, in order. -/
def selectorNames (x : Str) (us : List Tok) : List Str := (cut 0 [] us).flatMap (selectors x)

end Verif.Spec.Go
