import Verif.Canonical.Form
import Verif.Spec.GoText
/-
`strconv.Quote`, which is what `%q` prints for a string or a slice of bytes (Go's standard library; from
its documentation and source, it is not in /repo). Which characters count as printable is a parameter.
-/
namespace Verif

/-- `k` hexadecimal digits of a number. -/
def hexDigits : Nat → Nat → Str
  | 0, _ => []
  | k + 1, n => hexDigits k (n / 16) ++ [Char.ofNat (if n % 16 < 10 then 48 + n % 16 else 87 + n % 16)]

/-- The escapes of one character for control characters. -/
def controlEscape (c : Char) : Option Char :=
  if c.toNat = 7 then some 'a'
  else if c.toNat = 8 then some 'b'
  else if c.toNat = 12 then some 'f'
  else if c.toNat = 10 then some 'n'
  else if c.toNat = 13 then some 'r'
  else if c.toNat = 9 then some 't'
  else if c.toNat = 11 then some 'v'
  else none

/-- `strconv.appendEscapedRune`. -/
def quoteRune (print : Char → Bool) (c : Char) : Str :=
  if c = '"' ∨ c = '\\' then ['\\', c]
  else if print c then [c]
  else match controlEscape c with
    | some e => ['\\', e]
    | none =>
      if c.toNat < 32 ∨ c.toNat = 127 then '\\' :: 'x' :: hexDigits 2 c.toNat
      else if c.toNat < 65536 then '\\' :: 'u' :: hexDigits 4 c.toNat
      else '\\' :: 'U' :: hexDigits 8 c.toNat

/-- The loop of `strconv.appendQuotedWith`: a byte that starts no character is written as `\x`. The first
argument bounds the number of rounds. -/
def quoteFrom (print : Char → Bool) : Nat → List UInt8 → Str
  | 0, _ => []
  | _, [] => []
  | n + 1, b :: bs => match ByteArray.utf8DecodeChar? (b :: bs).toByteArray 0 with
    | some c => quoteRune print c ++ quoteFrom print n ((b :: bs).drop c.utf8Size)
    | none => '\\' :: 'x' :: hexDigits 2 b.toNat ++ quoteFrom print n bs

/-- `fmt.Sprintf("%q", bs)`. -/
def quoted (print : Char → Bool) (bs : List Byte) : Str :=
  '"' :: quoteFrom print bs.length (bs.map UInt8.ofBitVec) ++ ['"']

end Verif
