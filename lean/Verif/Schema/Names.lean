import Verif.Schema.Types
/-
Go names of types: v10/generator/util.go, namer.go and the `Name` methods of
v10/schema. Only the default namer (namer.go:41-43), which is what a program
running `compiler.Compile` uses. Characters are treated as ASCII.
-/
namespace Verif

/-- `QualifiedName.String`, v10/schema/qualified_name.go:9-14. -/
def QName.str (q : QName) : Str := if q.ns = [] then q.name else q.ns ++ '.' :: q.name

/-- The part after the last dot: `name[strings.LastIndex(name, ".")+1:]`,
v10/generator/util.go:20-21. -/
def afterLastDot (s : Str) : Str :=
  (s.reverse.takeWhile (· ≠ '.')).reverse

/-- `strings.Trim(name, "_")`, v10/generator/util.go:22. -/
def trimUnderscore (s : Str) : Str :=
  ((s.dropWhile (· = '_')).reverse.dropWhile (· = '_')).reverse

/-- `isSeparator` of Go's `strings.Title` for ASCII. -/
def isSeparator (c : Char) : Bool :=
  !(('0' ≤ c && c ≤ '9') || ('a' ≤ c && c ≤ 'z') || ('A' ≤ c && c ≤ 'Z') || c == '_')

/-- `unicode.ToTitle`/`unicode.ToUpper` for ASCII. -/
def upperAscii (c : Char) : Char :=
  if 'a' ≤ c && c ≤ 'z' then Char.ofNat (c.toNat - 32) else c

/-- The loop of `strings.Title`. -/
def titleFrom (prev : Char) : Str → Str
  | [] => []
  | c :: cs => (if isSeparator prev then upperAscii c else c) :: titleFrom c cs

/-- `strings.Title`. -/
def title (s : Str) : Str := titleFrom ' ' s

/-- `ToPublicSimpleName`, v10/generator/util.go:19-23. -/
def toPublicName (s : Str) : Str := title (trimUnderscore (afterLastDot s))

/-- `Definition.Name()`: record.go:33-35, enum.go:30-32, fixed.go:25-27. -/
def Def.goName (d : Def) : Str := toPublicName d.name.str

mutual
/-- `AvroType.Name()`: primitive.go:12, array.go:21, map.go:25, union.go:35-47,
reference.go:15. Unions have no explicit name here: `ParseSchema` uses
`NewNamespace(false)` (v10/compiler/compile.go:30). An unresolved reference has
no name (Go would dereference nil; `ParseSchema` excludes it). -/
def Ty.goName (env : Env) : Ty → Str
  | .null => "Null".toList
  | .bool => "Bool".toList
  | .int => "Int".toList
  | .long => "Long".toList
  | .float => "Float".toList
  | .double => "Double".toList
  | .bytes => "Bytes".toList
  | .string => "String".toList
  | .array t => "Array".toList ++ t.goName env
  | .map t => "Map".toList ++ t.goName env
  | .union ts => toPublicName ("Union".toList ++ Ty.goNames env ts)
  | .ref q => match env.find q with
    | some d => d.goName
    | none => []
/-- Concatenation of the member names, union.go:35-40. -/
def Ty.goNames (env : Env) : List Ty → Str
  | [] => []
  | t :: ts => t.goName env ++ Ty.goNames env ts
end

end Verif
