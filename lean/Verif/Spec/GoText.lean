import Verif.Wire.Basic
import Verif.Schema.Types
/-
The part of Go's lexical structure that generated declarations use (The Go Programming Language
Specification, "Lexical elements"): line comments, words (identifiers, keywords, numbers; ASCII), string
literals, single signs, and the semicolons put in at line ends. What is not described gives `none`.
-/
namespace Verif.Spec.Go
open Verif

/-- Tokens. A string literal is given by its value. -/
inductive Tok where
  | word (s : Str)
  | text (v : List Byte)
  | sign (c : Char)
  deriving DecidableEq

/-- The bytes of a character. -/
def charBytes (c : Char) : List Byte := (String.utf8EncodeChar c).map UInt8.toBitVec

/-- The value of a hexadecimal digit. -/
def hexDigit (c : Char) : Option Nat :=
  if '0' ≤ c ∧ c ≤ '9' then some (c.toNat - 48)
  else if 'a' ≤ c ∧ c ≤ 'f' then some (c.toNat - 87)
  else if 'A' ≤ c ∧ c ≤ 'F' then some (c.toNat - 55)
  else none

/-- Exactly `k` hexadecimal digits, and what follows them. -/
def hexNumber : Nat → Nat → Str → Option (Nat × Str)
  | 0, acc, s => some (acc, s)
  | _ + 1, _, [] => none
  | k + 1, acc, c :: s => match hexDigit c with
    | none => none
    | some d => hexNumber k (16 * acc + d) s

/-- The escapes of one character: `\a`, `\b`, `\f`, `\n`, `\r`, `\t`, `\v`, `\\`, `\"`. -/
def shortEscape (c : Char) : Option Byte :=
  if c = 'a' then some 7
  else if c = 'b' then some 8
  else if c = 'f' then some 12
  else if c = 'n' then some 10
  else if c = 'r' then some 13
  else if c = 't' then some 9
  else if c = 'v' then some 11
  else if c = '\\' then some 92
  else if c = '"' then some 34
  else none

/-- A code point given by its number. -/
def codePoint (n : Nat) : Option (List Byte) := if n.isValidChar then some (charBytes (Char.ofNat n)) else none

/-- One element of a string literal, its value and what follows: a character, `\xHH` (a byte), `\uHHHH`,
`\UHHHHHHHH` (a character) or a short escape. Octal escapes are left out. -/
def element : Str → Option (List Byte × Str)
  | [] => none
  | c :: s =>
    if c = '\n' then none
    else if c ≠ '\\' then some (charBytes c, s)
    else match s with
      | [] => none
      | e :: s =>
        if e = 'x' then (hexNumber 2 0 s).map fun x => ([BitVec.ofNat 8 x.1], x.2)
        else if e = 'u' then (hexNumber 4 0 s).bind fun x => (codePoint x.1).map fun v => (v, x.2)
        else if e = 'U' then (hexNumber 8 0 s).bind fun x => (codePoint x.1).map fun v => (v, x.2)
        else (shortEscape e).map fun b => ([b], s)

/-- A string literal after its opening quote: its value and what follows the closing quote. The first
argument bounds the number of elements. -/
def strLit : Nat → Str → Option (List Byte × Str)
  | 0, _ => none
  | _ + 1, [] => none
  | n + 1, c :: s =>
    if c = '"' then some ([], s)
    else match element (c :: s) with
      | none => none
      | some (v, r) => (strLit n r).map fun x => (v ++ x.1, x.2)

/-- The characters of words. -/
def wordChar (c : Char) : Bool := ('a' ≤ c && c ≤ 'z') || ('A' ≤ c && c ≤ 'Z') || ('0' ≤ c && c ≤ '9') || c == '_'

/-- The keywords, but for those after which a semicolon is put in (break, continue, fallthrough, return). -/
def openKeywords : List Str :=
  ["case".toList, "chan".toList, "const".toList, "default".toList, "defer".toList, "else".toList, "for".toList,
   "func".toList, "go".toList, "goto".toList, "if".toList, "import".toList, "interface".toList, "map".toList,
   "package".toList, "range".toList, "select".toList, "struct".toList, "switch".toList, "type".toList, "var".toList]

/-- A line that ends after this token is ended by a semicolon. -/
def Tok.ends : Tok → Bool
  | .word w => !openKeywords.contains w
  | .text _ => true
  | .sign c => c == ')' || c == ']' || c == '}'

/-- The signs described here: those of one character that form no longer sign with one another in
generated declarations. -/
def signs : Str := "(){}[],.*;:=-+&!|<>".toList

/-- The tokens of a text. `b`: the last token asks for a semicolon at the line end. The first argument
bounds the number of steps. -/
def tokensFrom : Nat → Bool → Str → Option (List Tok)
  | 0, _, _ => none
  | _ + 1, b, [] => some (if b then [.sign ';'] else [])
  | n + 1, b, c :: s =>
    if c = '\n' then (tokensFrom n false s).map fun ts => (if b then [.sign ';'] else []) ++ ts
    else if c = ' ' ∨ c = '\t' ∨ c = '\r' then tokensFrom n b s
    else if c = '/' then match s with
      | '/' :: s => tokensFrom n b (s.dropWhile (· ≠ '\n'))
      | _ => none
    else if c = '`' then match s.dropWhile (· ≠ '`') with
      | [] => none
      | _ :: r => (tokensFrom n true r).map (.text (((s.takeWhile (· ≠ '`')).filter (· ≠ '\r')).flatMap charBytes) :: ·)
    else if c = '"' then match strLit s.length s with
      | none => none
      | some (v, r) => (tokensFrom n true r).map (.text v :: ·)
    else if wordChar c then
      (tokensFrom n (Tok.ends (.word (c :: s.takeWhile wordChar))) (s.dropWhile wordChar)).map
        (.word (c :: s.takeWhile wordChar) :: ·)
    else if c ∈ signs then (tokensFrom n (Tok.ends (.sign c)) s).map (.sign c :: ·)
    else none

/-- Characters that a Go source must not hold, wherever they are: NUL, and the byte order mark. -/
def forbidden (c : Char) : Bool := c.toNat == 0 || c.toNat == 0xFEFF

/-- The tokens of a piece of Go source. -/
def tokens (s : Str) : Option (List Tok) := if s.any forbidden then none else tokensFrom (s.length + 1) false s

end Verif.Spec.Go
