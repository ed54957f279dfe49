import Verif.Schema.Names
import Verif.Compiler.Fuel
import Verif.Canonical.Crc
import Verif.Util.Bytes
/-
The canonical form of a schema: v10/schema/canonical/canonical.go, and its text as `json.Marshal`
writes it (v10/generator/flat/templates/lookup.go:41-49).
-/
namespace Verif

/-- The values `CanonicalForm` builds: strings, slices, `CanonicalFields`
(v10/schema/canonical/canonical.go:9-17). Of a `CanonicalFields` the attributes that `json.Marshal`
writes are listed, in the order of the struct; `omitempty` drops empty slices. -/
inductive Canon where
  | str (s : Str)
  | num (n : Int)
  | arr (l : List Canon)
  | obj (l : List (Str × Canon))

/-- `Symbols: def.Symbols()` and `Fields: fields` with `omitempty`, canonical.go:12-13. -/
def nonEmpty (key : Str) : List Canon → List (Str × Canon)
  | [] => []
  | l => [(key, .arr l)]

/-- What `canonicalForm` is to its callees. The names visited are passed on; `none` is a nil dereference
(an unresolved reference) or a recursion cut short. -/
abbrev Canonizer := Ty → List Str → Option (Canon × List Str)

/-- The members of a union, canonical.go:87-92. -/
def canonMembers (f : Canonizer) : List Ty → List Str → Option (List Canon × List Str)
  | [], vis => some ([], vis)
  | t :: ts, vis => match f t vis with
    | none => none
    | some (c, vis) => match canonMembers f ts vis with
      | none => none
      | some (cs, vis) => some (c :: cs, vis)

/-- The fields of a record, canonical.go:35-42. -/
def canonFields (f : Canonizer) : List Field → List Str → Option (List Canon × List Str)
  | [], vis => some ([], vis)
  | x :: xs, vis => match f x.ty vis with
    | none => none
    | some (c, vis) => match canonFields f xs vis with
      | none => none
      | some (cs, vis) => some (.obj [("name".toList, .str x.name), ("type".toList, c)] :: cs, vis)

/-- `definitionCanonicalForm`, canonical.go:27-65. -/
def canonDef (f : Canonizer) (d : Def) (vis : List Str) : Option (Canon × List Str) :=
  if d.name.str ∈ vis then some (.str d.name.str, vis)
  else match d.kind with
    | .record fs => match canonFields f fs (d.name.str :: vis) with
      | none => none
      | some (cs, vis) => some (.obj ([("name".toList, .str d.name.str), ("type".toList, .str "record".toList)] ++
          nonEmpty "fields".toList cs), vis)
    | .enum ss _ => some (.obj ([("name".toList, .str d.name.str), ("type".toList, .str "enum".toList)] ++
          nonEmpty "symbols".toList (ss.map .str)), d.name.str :: vis)
    | .fixed n => some (.obj [("name".toList, .str d.name.str), ("type".toList, .str "fixed".toList),
          ("size".toList, .num n)], d.name.str :: vis)

/-- `canonicalForm`, canonical.go:67-107. The number bounds the recursion. -/
def canonTy (env : Env) : Nat → Canonizer
  | 0, _, _ => none
  | _ + 1, .bool, vis => some (.str "boolean".toList, vis)
  | _ + 1, .bytes, vis => some (.str "bytes".toList, vis)
  | _ + 1, .double, vis => some (.str "double".toList, vis)
  | _ + 1, .float, vis => some (.str "float".toList, vis)
  | _ + 1, .int, vis => some (.str "int".toList, vis)
  | _ + 1, .long, vis => some (.str "long".toList, vis)
  | _ + 1, .null, vis => some (.str "null".toList, vis)
  | _ + 1, .string, vis => some (.str "string".toList, vis)
  | k + 1, .union ts, vis => match canonMembers (canonTy env k) ts vis with
    | none => none
    | some (cs, vis) => some (.arr cs, vis)
  | k + 1, .array t, vis => match canonTy env k t vis with
    | none => none
    | some (c, vis) => some (.obj [("type".toList, .str "array".toList), ("items".toList, c)], vis)
  | k + 1, .map t, vis => match canonTy env k t vis with
    | none => none
    | some (c, vis) => some (.obj [("type".toList, .str "map".toList), ("values".toList, c)], vis)
  | k + 1, .ref q, vis => match env.find q with
    | none => none
    | some d => canonDef (canonTy env k) d vis

/-- `CanonicalForm`, canonical.go:19-21. The bound is large enough (`canonical_exists`). -/
def canonicalForm (s : Schema) : Option Canon :=
  (canonTy s.env (s.root.size + s.env.length * (s.env.fsize + 1)) s.root []).map (·.1)

/-- Characters that `json.Marshal` escapes: `"`, `\`, controls, and for HTML and JavaScript `<`, `>`, `&`,
U+2028 and U+2029 (Go's encoding/json, `appendString` with `escapeHTML`). -/
def escaped (c : Char) : Bool :=
  c.toNat < 0x20 || c == '"' || c == '\\' || c == '<' || c == '>' || c == '&' || c.toNat == 0x2028 || c.toNat == 0x2029

/-- `\uXXXX`. -/
def uEscape (n : Nat) : Str :=
  ['\\', 'u', lowerHex (n / 4096 % 16), lowerHex (n / 256 % 16), lowerHex (n / 16 % 16), lowerHex (n % 16)]

/-- One character of a string (Go's encoding/json, `appendString`; Go before 1.22, later versions
write U+0008 and U+000C as `\b` and `\f`). -/
def quoteChar (c : Char) : Str :=
  if escaped c then
    if c = '"' then ['\\', '"'] else if c = '\\' then ['\\', '\\'] else if c = '\n' then ['\\', 'n']
    else if c = '\r' then ['\\', 'r'] else if c = '\t' then ['\\', 't'] else uEscape c.toNat
  else [c]

/-- A string as `json.Marshal` writes it. -/
def quote (s : Str) : Str := '"' :: s.flatMap quoteChar ++ ['"']

/-- A number as `json.Marshal` writes an `int`. -/
def printInt : Int → Str
  | .ofNat n => Nat.toDigits 10 n
  | .negSucc n => '-' :: Nat.toDigits 10 (n + 1)

mutual
/-- `json.Marshal` of a canonical form. -/
def Canon.print : Canon → Str
  | .str s => quote s
  | .num n => printInt n
  | .arr [] => "[]".toList
  | .arr (c :: cs) => '[' :: c.print ++ Canon.printRest cs
  | .obj [] => "{}".toList
  | .obj ((k, c) :: cs) => '{' :: (quote k ++ ':' :: c.print) ++ Canon.printEntries cs
def Canon.printRest : List Canon → Str
  | [] => "]".toList
  | c :: cs => ',' :: c.print ++ Canon.printRest cs
def Canon.printEntries : List (Str × Canon) → Str
  | [] => "}".toList
  | (k, c) :: cs => ',' :: (quote k ++ ':' :: c.print) ++ Canon.printEntries cs
end

/-- `json.Marshal(CanonicalForm(t))`. -/
def canonicalText (s : Schema) : Option Str := (canonicalForm s).map Canon.print

/-- The bytes of a Go string. -/
def utf8 (s : Str) : List Byte := (String.ofList s).toUTF8.data.toList.map UInt8.toBitVec

/-- `AvroCRC64Fingerprint()` of a generated record, v10/generator/flat/templates/lookup.go:41-49 and
record.go:154-156. -/
def recordFingerprint (s : Schema) : Option (List Byte) :=
  (canonicalText s).map fun t => Crc.avroCRC64Fingerprint (utf8 t)

end Verif
