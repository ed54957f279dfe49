import Verif.Spec.JsonEnc
import Verif.Gen.Default
import Verif.Gen.Serialize
/-
`MarshalJSON` and `UnmarshalJSON` of generated types:
v10/generator/flat/templates/{record,union,enum,fixed,bytes}.go, with what Go's encoding/json does for
the Go types in between (booleans, numbers, strings, slices, maps, pointers, json.RawMessage).

Texts are represented by the tree they denote (`JTree`): the JSON lexer and printer of encoding/json
are not modelled.
-/
namespace Verif

/-- Why there is no result. -/
inductive JErr where
  /-- the method returns an error -/
  | refused
  /-- the statements of a default fail -/
  | deflt (e : DefErr)
  /-- not a value of the type: Go's type checker excludes it -/
  | untyped
  deriving DecidableEq

abbrev JRes := Except JErr

/-- encoding/json refuses texts in which arrays and objects are nested deeper (`maxNestingDepth`). -/
def maxNesting : Nat := 10000

/-! Text -/

/-- The characters of a Go string, decoded `n` times at most; a byte that starts no valid UTF-8 sequence
becomes U+FFFD. -/
def fromUtf8From : Nat → List UInt8 → Str
  | 0, _ => []
  | _, [] => []
  | n + 1, b :: bs => match ByteArray.utf8DecodeChar? (b :: bs).toByteArray 0 with
    | some c => c :: fromUtf8From n ((b :: bs).drop c.utf8Size)
    | none => Char.ofNat 0xFFFD :: fromUtf8From n bs

/-- The characters that encoding/json writes for a Go string. -/
def fromUtf8 (bs : List Byte) : Str := fromUtf8From bs.length (bs.map UInt8.ofBitVec)

/-- The string that the text of `EncodeByteString` (v10/util/bytes.go:10-18, `encodeByteString`) denotes. -/
def byteChars (bs : List Byte) : Str := bs.map fun b => Char.ofNat b.toNat

/-! Numbers -/

/-- `strconv.AppendInt`. -/
def intNum (z : Int) : JNum := .int (decide (z < 0)) z.natAbs

/-- A decimal in the text: from 10^21 on with an exponent. -/
def jnum (s : Bool) (c : Nat × Nat) : JNum := if c.2 = 1 ∧ c.1 < 10 ^ 21 then .int s c.1 else .frac s c.1 c.2

/-- `floatEncoder` of encoding/json: the shortest decimal that reads back as the same float; infinities and
NaNs are refused. -/
def floatNum (F : Fmt) (b : BitVec F.width) : JRes JTree :=
  if F.top ≤ F.low b then .error .refused
  else .ok (.num (jnum (F.neg b) (shortest F (F.mag (F.low b)) (2 ^ F.scale))))

/-- `strconv.ParseInt` and `OverflowInt`. -/
def intInto (w : Nat) : JNum → JRes (BitVec w)
  | .int s n =>
    let z := if s then -(n : Int) else n
    if -(2 ^ (w - 1) : Int) ≤ z ∧ z < 2 ^ (w - 1) then .ok (BitVec.ofInt w z) else .error .refused
  | .frac _ _ _ => .error .refused

/-- `strconv.ParseFloat`: an overflow is refused; a zero has the sign of the text. -/
def floatInto (F : Fmt) (x : JNum) : JRes (BitVec F.width) :=
  let t := roundTo F x.num x.den
  if F.top ≤ t then .error .refused
  else .ok (BitVec.ofNat F.width (t + if x.neg then 2 ^ (F.k + F.p) else 0))

/-! MarshalJSON -/

/-- `UnionKey()`: v10/schema/primitive.go:37-39 with the keys in null.go, bool.go, int.go, long.go, float.go,
double.go, bytes.go and string.go, array.go:115-117, map.go:109-111, reference.go:66-68; `none`: union.go:190-192,
the generator panics. -/
def unionKey (env : Env) : Ty → Option Str
  | .null => some "null".toList
  | .bool => some "boolean".toList
  | .int => some "int".toList
  | .long => some "long".toList
  | .float => some "float".toList
  | .double => some "double".toList
  | .bytes => some "bytes".toList
  | .string => some "string".toList
  | .array _ => some "array".toList
  | .map _ => some "map".toList
  | .union _ => none
  | .ref q => (env.find q).map fun d => d.name.str

/-- `String()` of an enum, templates/enum.go:24-32. -/
def enumString (syms : List Str) (v : BitVec 32) : Str :=
  match (if 0 ≤ v.toInt then syms[v.toInt.toNat]? else none) with
  | some s => s
  | none => "unknown".toList

/-- The selected member, if it is one of the cases of the switch in templates/union.go:153-160. -/
def unionCase (ts : List Ty) (tag : BitVec 64) : Option Ty :=
  if 0 ≤ tag.toInt ∧ nullIndex ts ≠ some tag.toInt.toNat then ts[tag.toInt.toNat]? else none

/-- A `map[string]json.RawMessage` with these entries: encoding/json writes it in the order of the keys'
bytes, which is the order in which the model lists maps. -/
def rawObject (es : List (List Byte × JTree)) : JTree := .obj (es.map fun e => (fromUtf8 e.1, e.2))

mutual
/-- `json.Marshal` of a value of type `t`. -/
def marshal (env : Env) : Val → Ty → JRes JTree
  -- a nil `*types.NullVal`
  | .null, t => match t with
    | .null => .ok .null
    | _ => .error .untyped
  | .bool b, t => match t with
    | .bool => .ok (.bool b)
    | _ => .error .untyped
  | .int v, t => match t with
    | .int => .ok (.num (intNum v.toInt))
    | _ => .error .untyped
  | .long v, t => match t with
    | .long => .ok (.num (intNum v.toInt))
    | _ => .error .untyped
  | .float b, t => match t with
    | .float => floatNum single b
    | _ => .error .untyped
  | .double b, t => match t with
    | .double => floatNum double b
    | _ => .error .untyped
  -- templates/bytes.go:23-25
  | .bytes bs, t => match t with
    | .bytes => .ok (.str (byteChars bs))
    | _ => .error .untyped
  | .string bs, t => match t with
    | .string => .ok (.str (fromUtf8 bs))
    | _ => .error .untyped
  -- templates/fixed.go:33-35
  | .fixed bs, t => match t with
    | .ref q => match env.find q with
      | some d => match d.kind with
        | .fixed _ => .ok (.str (byteChars bs))
        | _ => .error .untyped
      | none => .error .untyped
    | _ => .error .untyped
  -- templates/enum.go:53-55
  | .enum v, t => match t with
    | .ref q => match env.find q with
      | some d => match d.kind with
        | .enum syms _ => .ok (.str (enumString syms v))
        | _ => .error .untyped
      | none => .error .untyped
    | _ => .error .untyped
  | .array vs, t => match t with
    | .array item => (marshalItems env vs item).map .arr
    | _ => .error .untyped
  | .map es, t => match t with
    | .map item => (marshalEntries env es item).map rawObject
    | _ => .error .untyped
  -- a nil slice or map; templates/union.go:149-151
  | .nil, t => match t with
    | .array _ => .ok .null
    | .map _ => .ok .null
    | .union ts => if ts.any Ty.isNull then .ok .null else .error .untyped
    | _ => .error .untyped
  -- no member was ever assigned: Go would write a zero value
  | .union _ none, _ => .error .untyped
  -- templates/union.go:147-162
  | .union tag (some v), t => match t with
    | .union ts => match unionCase ts tag with
      | none => .error .refused
      | some u => match unionKey env u with
        | none => .error .untyped
        | some k => (marshal env v u).map fun j => .obj [(k, j)]
    | _ => .error .untyped
  -- templates/record.go:158-170
  | .record vs, t => match t with
    | .ref q => match env.find q with
      | some d => match d.kind with
        | .record fs => (marshalFields env vs fs).map fun es => rawObject (mapOf es)
        | _ => .error .untyped
      | none => .error .untyped
    | _ => .error .untyped
/-- The elements of a slice. -/
def marshalItems (env : Env) : List Val → Ty → JRes (List JTree)
  | [], _ => .ok []
  | v :: vs, t => (marshal env v t).bind fun j => (marshalItems env vs t).map (j :: ·)
/-- The entries of a map, by key. -/
def marshalEntries (env : Env) : List (List Byte × Val) → Ty → JRes (List (List Byte × JTree))
  | [], _ => .ok []
  | (k, v) :: es, t => (marshal env v t).bind fun j => (marshalEntries env es t).map ((k, j) :: ·)
/-- `output[name], err = json.Marshal(r.Field)` for every field, templates/record.go:163-168. -/
def marshalFields (env : Env) : List Val → List Field → JRes (List (List Byte × JTree))
  | [], fs => match fs with
    | [] => .ok []
    | _ :: _ => .error .untyped
  | v :: vs, fs => match fs with
    | [] => .error .untyped
    | f :: fs => (marshal env v f.ty).bind fun j => (marshalFields env vs fs).map ((utf8 f.name, j) :: ·)
end

/-- `json.Marshal` of a record or union: the text is scanned once more (`compact`), which bounds its
nesting. -/
def jsonEncode (env : Env) (v : Val) (t : Ty) : JRes JTree :=
  (marshal env v t).bind fun j => if j.depth ≤ maxNesting then .ok j else .error .refused

/-! UnmarshalJSON -/

/-- Decoding one JSON value into a variable of a type that holds a value. -/
abbrev Read := Ty → Val → JRes Val

/-- What a new Go variable holds. For a record `nil` stands for the struct of zero values. -/
def jsonZero (env : Env) : Ty → Val
  | .null => .null
  | .bool => .bool false
  | .int => .int 0
  | .long => .long 0
  | .float => .float 0
  | .double => .double 0
  | .bytes => .bytes []
  | .string => .string []
  | .ref q => match env.find q with
    | some d => match d.kind with
      | .fixed n => .fixed (List.replicate n.toNat 0)
      | .enum _ _ => .enum 0
      | .record _ => .nil
    | none => .nil
  | _ => .nil

/-- The entry of a Go map into which the entries of an object were decoded in turn. -/
def lastMember {α : Type} : List (Str × α) → Str → Option α
  | [], _ => none
  | (k', x) :: kvs, k => match lastMember kvs k with
    | some y => some y
    | none => if k' = k then some x else none

/-- The entry of the first key that has one: templates/record.go:182-192. -/
def firstOf (get : Str → Option Read) : List Str → Option Read
  | [] => none
  | k :: ks => match get k with
    | some r => some r
    | none => firstOf get ks

/-- A result of the statements of a default. -/
def ofMade {α : Type} : Made α → JRes α
  | .ok a => .ok a
  | .error e => .error (.deflt e)

/-- The variable into which a default is written: templates/record.go:200-202. -/
def defaultTarget (nm : Namer) (env : Env) (dn : Nat) (t : Ty) (cur : Val) : Made Val :=
  if t.constructable env then construct nm env dn t else .ok cur

/-- A field without entry: templates/record.go:198-207. `dn` is the fuel of `applyDefault`. -/
def absent (nm : Namer) (env : Env) (dn : Nat) (f : Field) (cur : Val) : JRes Val :=
  match f.dflt with
  | none => .error .refused
  | some j => ofMade ((defaultTarget nm env dn f.ty cur).bind fun v0 => (applyDefault nm env dn j f.ty true (some v0)).bind present)

/-- A field: templates/record.go:182-207. -/
def fieldInto (nm : Namer) (env : Env) (dn : Nat) (get : Str → Option Read) (f : Field) (cur : Val) : JRes Val :=
  match firstOf get (f.name :: f.aliases) with
  | some r => r f.ty cur
  | none => absent nm env dn f cur

/-- The fields of a record: templates/record.go:181-208. -/
def fieldsInto (nm : Namer) (env : Env) (dn : Nat) (get : Str → Option Read) : List Field → List Val → JRes (List Val)
  | [], _ => .ok []
  | f :: fs, cs =>
    (fieldInto nm env dn get f (cs.headD (jsonZero env f.ty))).bind fun v =>
      (fieldsInto nm env dn get fs cs.tail).map (v :: ·)

/-- The fields that a record has; none if it is the zero record. -/
def recordPart : Val → List Val
  | .record vs => vs
  | _ => []

/-- The elements that a slice has. -/
def slicePart : Val → List Val
  | .array vs => vs
  | _ => []

/-- The entries that a map has. -/
def mapPart : Val → List (List Byte × Val)
  | .map m => m
  | _ => []

/-- `UnmarshalJSON` of a record: templates/record.go:172-210. -/
def recordInto (nm : Namer) (env : Env) (dn : Nat) (get : Str → Option Read) (fs : List Field) (cur : Val) : JRes Val :=
  (fieldsInto nm env dn get fs (recordPart cur)).map .record

/-- `NewXFromString`, templates/enum.go:38-51. The constants are those of the symbols (the code compiles). -/
def enumFrom (nm : Namer) (type : Str) (syms : List Str) (e : Str) (s : Str) : JRes Val :=
  match symbolIndex syms s with
  | some i => .ok (.enum (BitVec.ofNat 32 i))
  | none => if e = [] then .error .refused else ofMade ((orBuild (symbolConst nm type syms e)).map .enum)

/-- null: it sets pointers, slices and maps to nil and leaves other variables as they are; the methods
`UnmarshalJSON` are called with it. -/
def nullInto (nm : Namer) (env : Env) (dn : Nat) : Read := fun t cur => match t with
  | .null => .ok .null
  | .bytes => .ok (.bytes [])
  | .array _ => .ok .nil
  | .map _ => .ok .nil
  | .union ts => if ts.any Ty.isNull then .ok .nil else .error .refused
  | .ref q => match env.find q with
    | some d => match d.kind with
      | .enum syms e => enumFrom nm (nm.publicName d.name.str) syms e []
      | .fixed _ => .ok cur
      | .record fs => recordInto nm env dn (fun _ => none) fs cur
    | none => .error .untyped
  | _ => .ok cur

/-- true, false -/
def boolInto (b : Bool) : Read := fun t _ => match t with
  | .bool => .ok (.bool b)
  | _ => .error .refused

/-- a number -/
def numInto (x : JNum) : Read := fun t _ => match t with
  | .int => (intInto 32 x).map .int
  | .long => (intInto 64 x).map .long
  | .float => (floatInto single x).map .float
  | .double => (floatInto double x).map .double
  | _ => .error .refused

/-- a string: templates/bytes.go:14-21, enum.go:57-66, fixed.go:23-31 -/
def strInto (nm : Namer) (env : Env) (s : Str) : Read := fun t cur => match t with
  | .bytes => .ok (.bytes (decodeByteString s))
  | .string => .ok (.string (utf8 s))
  | .ref q => match env.find q with
    | some d => match d.kind with
      | .enum syms e => enumFrom nm (nm.publicName d.name.str) syms e s
      | .fixed n => .ok (.fixed (fixedFromString (fixedBytes n.toNat (some cur)) s))
      | .record _ => .error .refused
    | none => .error .untyped
  | _ => .error .refused

/-- The elements of an array: each is decoded into the element that the slice has at its place, if there is
one (`d.array` of encoding/json). The slice is taken to have no room behind its end, where there could be
old elements. -/
def itemsInto (env : Env) (t : Ty) : List Read → List Val → JRes (List Val)
  | [], _ => .ok []
  | r :: rs, cs => (r t (cs.headD (jsonZero env t))).bind fun v => (itemsInto env t rs cs.tail).map (v :: ·)

/-- an array -/
def arrInto (env : Env) (rs : List Read) : Read := fun t cur => match t with
  | .array item => (itemsInto env item rs (slicePart cur)).map .array
  | _ => .error .refused

/-- The entries of an object, decoded into a map: each into a new variable that is then assigned; the map
keeps the entries it has (`d.object` of encoding/json). -/
def entriesInto (env : Env) (t : Ty) : List (Str × Read) → List (List Byte × Val) → JRes (List (List Byte × Val))
  | [], m => .ok m
  | (k, r) :: kvs, m => (r t (jsonZero env t)).bind fun v => entriesInto env t kvs (mapInsert (utf8 k) v m)

/-- `len(fields) > 1`. -/
def severalKeys : List Str → Bool
  | [] => false
  | k :: ks => ks.any fun k' => !decide (k' = k)

/-- What the field of member `i` holds. The fields of members not selected are not part of the model; they
are taken to hold zero values. -/
def memberCur (env : Env) (t : Ty) (i : Nat) : Val → Val
  | .union tag (some v) => if tag.toNat = i then v else jsonZero env t
  | _ => jsonZero env t

/-- The members of a union in turn, from `i`: templates/union.go:177-184. -/
def membersInto (env : Env) (nul : Option Nat) (get : Str → Option Read) (cur : Val) : List Ty → Nat → JRes Val
  | [], _ => .error .refused
  | t :: ts, i =>
    if nul = some i then membersInto env nul get cur ts (i + 1)
    else match (unionKey env t).bind get with
      | none => membersInto env nul get cur ts (i + 1)
      | some r => (r t (memberCur env t i cur)).map fun v => .union (BitVec.ofNat 64 i) (some v)

/-- an object: templates/record.go:172-210, union.go:165-186. A `*types.NullVal` becomes a pointer to an
empty struct, which the model does not tell from nil. -/
def objInto (nm : Namer) (env : Env) (dn : Nat) (kvs : List (Str × Read)) : Read := fun t cur => match t with
  | .null => .ok .null
  | .map item => (entriesInto env item kvs (mapPart cur)).map .map
  | .union ts =>
    if severalKeys (kvs.map Prod.fst) then .error .refused
    else membersInto env (nullIndex ts) (lastMember kvs) cur ts 0
  | .ref q => match env.find q with
    | some d => match d.kind with
      | .record fs => recordInto nm env dn (lastMember kvs) fs cur
      | _ => .error .refused
    | none => .error .untyped
  | _ => .error .refused

mutual
/-- `json.Unmarshal` into a variable of type `t` that holds `cur`. -/
def unmarshal (nm : Namer) (env : Env) (dn : Nat) : JTree → Read
  | .null => nullInto nm env dn
  | .bool b => boolInto b
  | .num x => numInto x
  | .str s => strInto nm env s
  | .arr js => arrInto env (readers nm env dn js)
  | .obj kvs => objInto nm env dn (keyed nm env dn kvs)
def readers (nm : Namer) (env : Env) (dn : Nat) : List JTree → List Read
  | [] => []
  | j :: js => unmarshal nm env dn j :: readers nm env dn js
def keyed (nm : Namer) (env : Env) (dn : Nat) : List (Str × JTree) → List (Str × Read)
  | [] => []
  | (k, j) :: kvs => (k, unmarshal nm env dn j) :: keyed nm env dn kvs
end

/-- `json.Unmarshal` of a text. -/
def jsonDecode (nm : Namer) (env : Env) (dn : Nat) (j : JTree) (t : Ty) (cur : Val) : JRes Val :=
  if j.depth ≤ maxNesting then unmarshal nm env dn j t cur else .error .refused

end Verif
