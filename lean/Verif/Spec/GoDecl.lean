import Verif.Spec.GoText
/-
Go declarations as tokens: the types of members, structs, constants and methods that return a constant.
-/
namespace Verif.Spec.Go
open Verif

/-- A word. -/
def w (s : String) : Tok := .word s.toList

/-- Go types as members of generated structs have them. -/
inductive GoTy where
  /-- A predeclared or generated type. -/
  | named (s : Str)
  /-- A type of another package. -/
  | of (pkg s : Str)
  | pointer (t : GoTy)
  | slice (t : GoTy)
  /-- A map from strings. -/
  | dict (t : GoTy)
  deriving DecidableEq

def GoTy.toks : GoTy → List Tok
  | .named s => [.word s]
  | .of pkg s => [.word pkg, .sign '.', .word s]
  | .pointer t => .sign '*' :: t.toks
  | .slice t => .sign '[' :: .sign ']' :: t.toks
  | .dict t => w "map" :: .sign '[' :: w "string" :: .sign ']' :: t.toks

/-- A member of a struct: its name, its type and its tag. -/
structure Member where
  name : Str
  ty : GoTy
  tag : Option (List Byte)
  deriving DecidableEq

def Member.toks (m : Member) : List Tok :=
  .word m.name :: (m.ty.toks ++ ((m.tag.map Tok.text).toList ++ [.sign ';']))

/-- `type Name struct { … }`. -/
def structToks (name : Str) (ms : List Member) : List Tok :=
  w "type" :: .word name :: w "struct" :: .sign '{' :: (ms.flatMap Member.toks ++ [.sign '}', .sign ';'])

/-- `const Name = "…"`. -/
def constToks (name : Str) (v : List Byte) : List Tok := [w "const", .word name, .sign '=', .text v, .sign ';']

/-- `func (recv Type) Name() string { return "…" }`. -/
def methodToks (type : List Tok) (name : Str) (v : List Byte) : List Tok :=
  [w "func", .sign '(', w "r"] ++ type ++ [.sign ')', .word name, .sign '(', .sign ')', w "string", .sign '{', w "return",
    .text v, .sign ';', .sign '}', .sign ';']

/-- A number in decimal. -/
def number (n : Nat) : Tok := .word (Nat.toDigits 10 n)

/-- `type Name base; const ( … )`: the constants with their values. -/
def enumToks (name base : Str) (cs : List (Str × Nat)) : List Tok :=
  w "type" :: .word name :: .word base :: .sign ';' :: w "const" :: .sign '(' ::
    (cs.flatMap (fun c => [.word c.1, .word name, .sign '=', number c.2, .sign ';']) ++ [.sign ')', .sign ';'])

/-- The bytes of a text. -/
def bytesOf (s : Str) : List Byte := s.flatMap charBytes

/-- What is assumed of the characters that are written as they are: letters, digits and the underscore are;
the line end, NUL and the byte order mark are not. -/
structure Printing (print : Char → Bool) : Prop where
  names : ∀ c, wordChar c = true → print c = true
  newline : print '\n' = false
  others : ∀ c, forbidden c = true → print c = false

end Verif.Spec.Go
