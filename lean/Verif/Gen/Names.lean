import Verif.Schema.Names
import Verif.Parser.Ast
/-
The Go names of fields, enum symbols and types, and the names of the generated files:
v10/generator/util.go, v10/generator/namer.go, v10/schema/field.go, v10/schema/enum.go.
Characters are treated as ASCII, which is all a legal Avro name holds.
-/
namespace Verif

/-- `unicode.IsUpper` for ASCII. -/
def isUpper (c : Char) : Bool := 'A' ≤ c && c ≤ 'Z'

/-- `unicode.IsLower` for ASCII. -/
def isLower (c : Char) : Bool := 'a' ≤ c && c ≤ 'z'

/-- `unicode.ToLower` for ASCII. -/
def lowerAscii (c : Char) : Char := if isUpper c then Char.ofNat (c.toNat + 32) else c

/-- The loop of `ToSnake`, v10/generator/util.go:31-36; the first argument is `runes[i-1]`, if any. -/
def toSnakeFrom : Option Char → Str → Str
  | _, [] => []
  | prev, c :: cs =>
    let next := match cs with
      | d :: _ => isLower d
      | [] => false
    let before := match prev with
      | some p => isUpper c && (next || isLower p)
      | none => false
    (if before then ['_'] else []) ++ lowerAscii c :: toSnakeFrom (some c) cs

/-- `ToSnake`, v10/generator/util.go:26-39. -/
def toSnake (s : Str) : Str := toSnakeFrom none s

/-- The characters of `invalidTokensExpr`, v10/generator/namer.go:9. -/
def isInvalidToken (c : Char) : Bool :=
  c == '.' || c == '_' || c == ' ' || c == '\t' || c == '\n' || c == '\r' || c == Char.ofNat 12

/-- `re.ReplaceAllString(name, " ")`, namer.go:64: a run becomes one space. The flag says that the
run has been written already. -/
def spaceRuns : Bool → Str → Str
  | _, [] => []
  | inRun, c :: cs =>
    if isInvalidToken c then (if inRun then spaceRuns true cs else ' ' :: spaceRuns true cs)
    else c :: spaceRuns false cs

/-- `strings.Split(name, ".")`. -/
def splitDots : Str → List Str
  | [] => [[]]
  | c :: cs => if c = '.' then [] :: splitDots cs else match splitDots cs with
    | p :: ps => (c :: p) :: ps
    | [] => [[c]]

/-- `strings.Join(parts, ".")`. -/
def joinDots : List Str → Str
  | [] => []
  | [p] => p
  | p :: q :: ps => p ++ '.' :: joinDots (q :: ps)

/-- The two namers: `DefaultNamer` and `NamespaceNamer`, v10/generator/namer.go:23-32. -/
inductive Namer where
  | simple
  | namespaced (short : Bool)

/-- namer.go:59-63: the last two parts of a longer name. -/
def lastTwo (s : Str) : Str :=
  if (splitDots s).length > 2 then joinDots ((splitDots s).drop ((splitDots s).length - 2)) else s

/-- `NamespaceNamer.ToPublicName`, v10/generator/namer.go:58-66. -/
def namespacedName (short : Bool) (s : Str) : Str :=
  (title (spaceRuns false (if short then lastTwo s else s))).filter (· ≠ ' ')

/-- `ToPublicName`, v10/generator/util.go:10-12. -/
def Namer.publicName : Namer → Str → Str
  | .simple, s => toPublicName s
  | .namespaced short, s => namespacedName short s

/-- `invalidFieldNames`, v10/schema/field.go:13-33. -/
def invalidFieldNames : List Str :=
  ["Schema".toList, "Serialize".toList, "SchemaName".toList, "MarshalJSON".toList,
   "UnmarshalJSON".toList, "AvroCRC64Fingerprint".toList, "SetBoolean".toList, "SetInt".toList,
   "SetLong".toList, "SetFloat".toList, "SetDouble".toList, "SetBytes".toList, "SetString".toList,
   "Get".toList, "SetDefault".toList, "AppendMap".toList, "AppendArray".toList, "NullField".toList,
   "Finalize".toList]

/-- `Field.GoName`, v10/schema/field.go:82-88. -/
def fieldGoName (nm : Namer) (s : Str) : Str :=
  if nm.publicName s ∈ invalidFieldNames then "Field_".toList ++ nm.publicName s else nm.publicName s

/-- The methods of a generated struct, in the order of
v10/generator/flat/templates/record.go:79-172. -/
def recordMethods : List Str :=
  ["Serialize".toList, "Schema".toList, "SchemaName".toList, "SetBoolean".toList, "SetInt".toList,
   "SetLong".toList, "SetFloat".toList, "SetDouble".toList, "SetBytes".toList, "SetString".toList,
   "SetUnionElem".toList, "Get".toList, "SetDefault".toList, "NullField".toList, "AppendMap".toList,
   "AppendArray".toList, "HintSize".toList, "Finalize".toList, "AvroCRC64Fingerprint".toList,
   "MarshalJSON".toList, "UnmarshalJSON".toList]

/-- `GoType` of a definition: record.go:33-39, enum.go:63-65, fixed.go:37-39; the same as `Name`. -/
def PDef.goName (nm : Namer) (d : PDef) : Str := nm.publicName d.name.str

/-- `EnumDefinition.SymbolName`, v10/schema/enum.go:59-61. -/
def symbolGoName (nm : Namer) (type sym : Str) : Str := nm.publicName (type ++ title sym)

/-- `Name` of the primitive types, v10/schema/primitive.go:12 with the arguments of the constructors
(null.go, bool.go, int.go, long.go, float.go, double.go, bytes.go, string.go). -/
def Prim.goName : Prim → Str
  | .null => "Null".toList
  | .bool => "Bool".toList
  | .int => "Int".toList
  | .long => "Long".toList
  | .float => "Float".toList
  | .double => "Double".toList
  | .bytes => "Bytes".toList
  | .string => "String".toList

mutual
/-- `AvroType.Name()`: primitive.go:12, array.go:21, map.go:25, union.go:42-47, reference.go:15. A
reference without definition has no name (Go would dereference nil; `resolveRoots` excludes it). -/
def PTy.goName (nm : Namer) (n : NS) : PTy → Str
  | .prim p _ => p.goName
  | .array t _ => "Array".toList ++ t.goName nm n
  | .map t _ => "Map".toList ++ t.goName nm n
  | .union name ts _ => nm.publicName (if name = [] then "Union".toList ++ PTy.goNames nm n ts else name)
  | .ref q => match n.find q with
    | some d => d.goName nm
    | none => []
/-- `compositeFieldName`, union.go:34-40. -/
def PTy.goNames (nm : Namer) (n : NS) : List PTy → Str
  | [] => []
  | t :: ts => t.goName nm n ++ PTy.goNames nm n ts
end

end Verif
