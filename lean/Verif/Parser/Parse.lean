import Verif.Parser.Ast
/-
The schema parser: v10/parser/namespace.go, map_helper.go, util.go, and `ParseSchema`,
v10/compiler/compile.go:29-42, with v10/resolver/resolver.go.

The text is already decoded: `json.Unmarshal` into `interface{}` is not modelled. The functions that
change the `Namespace` return it also when they fail, as the Go code leaves it changed.
-/
namespace Verif

/-- The errors of the parser; the texts are left out. -/
inductive PErr where
  /-- `RequiredMapKeyError`, v10/parser/errors.go:47. -/
  | required (key : Str)
  /-- `WrongMapValueTypeError`, v10/parser/errors.go:29, and the like. -/
  | wrongType (key : Str)
  /-- "Conflicting definitions", v10/parser/namespace.go:32. -/
  | conflict (q : QName)
  /-- "already aliased with that name", v10/parser/namespace.go:41. -/
  | aliasTaken (q : QName)
  /-- "Unable to resolve type reference", v10/resolver/resolver.go:24. -/
  | unresolved (q : QName)
  /-- Not an error of the code: the recursion of the model was cut short. Never the result of
  `typeForSchema`. -/
  | deep
  deriving DecidableEq

/-- A JSON object, a Go map. -/
abbrev JObj := List (Str × Json)

/-- `getMapString`, v10/parser/map_helper.go:3-13. -/
def getStr (o : JObj) (key : Str) : Except PErr Str :=
  match o.lookup key with
  | none => .error (.required key)
  | some (.str s) => .ok s
  | some _ => .error (.wrongType key)

/-- `getMapArray`, v10/parser/map_helper.go:15-25. -/
def getArr (o : JObj) (key : Str) : Except PErr (List Json) :=
  match o.lookup key with
  | none => .error (.required key)
  | some (.arr l) => .ok l
  | some _ => .error (.wrongType key)

/-- `int(x)` of a float64: the fraction is dropped. -/
def truncReal (bits : BitVec 64) : Int :=
  let e := (bits.toNat / 2 ^ 52) % 2 ^ 11
  let m := bits.toNat % 2 ^ 52 + 2 ^ 52
  let a : Nat := if e = 0 then 0 else if e ≤ 1075 then m / 2 ^ (1075 - e) else m * 2 ^ (e - 1075)
  if bits.toNat / 2 ^ 63 = 1 then -(a : Int) else a

/-- `getMapFloat`, v10/parser/map_helper.go:27-37, and the conversion `int(sizeBytes)`,
v10/parser/namespace.go:271. For numbers beyond the range of `int` Go leaves the result of the
conversion open; the model keeps the number. -/
def getInt (o : JObj) (key : Str) : Except PErr Int :=
  match o.lookup key with
  | none => .error (.required key)
  | some (.num n) => .ok n
  | some (.real b) => .ok (truncReal b)
  | some _ => .error (.wrongType key)

/-- An optional string attribute, the empty string when absent: `doc`, `golang.tags`, the default of
an enum; v10/parser/namespace.go:113-119, 148-162, 216-222, 234-239. -/
def optStr (o : JObj) (key : Str) : Except PErr Str :=
  match o.lookup key with
  | none => .ok []
  | some (.str s) => .ok s
  | some _ => .error (.wrongType key)

/-- A list of strings out of a JSON array: `interfaceSliceToStringSlice`, v10/parser/util.go:3-13, and
the loops of v10/parser/namespace.go:171-177 and 414-420. -/
def strings (key : Str) : List Json → Except PErr (List Str)
  | [] => .ok []
  | .str s :: js => do let ss ← strings key js; .ok (s :: ss)
  | _ :: _ => .error (.wrongType key)

/-- The part of a name before the last dot, `name[:strings.LastIndex(name, ".")]`,
v10/parser/namespace.go:54; empty if there is no dot. -/
def beforeLastDot (s : Str) : Str := ((s.reverse.dropWhile (· ≠ '.')).drop 1).reverse

/-- `ParseAvroName`, v10/parser/namespace.go:51-57. -/
def parseAvroName (enclosing name : Str) : QName :=
  if '.' ∈ name then ⟨beforeLastDot name, afterLastDot name⟩ else ⟨enclosing, afterLastDot name⟩

/-- `avroNameForDefinition`, v10/parser/namespace.go:446-462. -/
def avroName (o : JObj) (enclosing : Str) : Except PErr QName := do
  let name ← getStr o "name".toList
  let nsp ← optStr o "namespace".toList
  .ok (parseAvroName (if nsp = [] then enclosing else nsp) name)

/-- `parseAliases`, v10/parser/namespace.go:401-422. -/
def parseAliases (o : JObj) (ns : Str) : Except PErr (List QName) :=
  match o.lookup "aliases".toList with
  | none => .ok []
  | some (.arr l) => do
    let ss ← strings "aliases".toList l
    .ok (ss.map (parseAvroName ns))
  | some _ => .error (.wrongType "aliases".toList)

/-- The aliases of a field, v10/parser/namespace.go:164-178. -/
def fieldAliases (o : JObj) : Except PErr (List Str) :=
  match o.lookup "aliases".toList with
  | none => .ok []
  | some (.arr l) => strings "aliases".toList l
  | some _ => .error (.wrongType "aliases".toList)

/-- The eight primitive names of `getTypeByName`, v10/parser/namespace.go:370-394. -/
def primNamed (s : Str) : Option Prim :=
  if s = "int".toList then some .int
  else if s = "long".toList then some .long
  else if s = "float".toList then some .float
  else if s = "double".toList then some .double
  else if s = "boolean".toList then some .bool
  else if s = "bytes".toList then some .bytes
  else if s = "string".toList then some .string
  else if s = "null".toList then some .null
  else none

/-- `getTypeByName`, v10/parser/namespace.go:369-397. -/
def typeByName (ns s : Str) (defn : Json) : PTy :=
  match primNamed s with
  | some p => .prim p defn
  | none => .ref (parseAvroName ns s)

/-- The loop over the aliases in `RegisterDefinition`, v10/parser/namespace.go:39-44. -/
def registerAliases (d : PDef) : List QName → NS → Except PErr Unit × NS
  | [], n => (.ok (), n)
  | a :: as, n =>
    match n.find a with
    | some _ => (.error (.aliasTaken a), n)
    | none => registerAliases d as { n with defs := n.defs ++ [(a, d)] }

/-- `RegisterDefinition`, v10/parser/namespace.go:29-46. -/
def register (n : NS) (d : PDef) : Except PErr Unit × NS :=
  match n.find d.name with
  | some cur => if cur = d then (.ok (), n) else (.error (.conflict d.name), n)
  | none => registerAliases d d.aliases
      { n with defs := n.defs ++ [(d.name, d)], roots := n.roots ++ [.defn d] }

/-- `decodeEnumDefinition`, v10/parser/namespace.go:196-242. The check of `type`, lines 197-204, has
been made by the caller. -/
def decodeEnum (ns : Str) (o : JObj) : Except PErr PDef := do
  let name ← avroName o ns
  let syms ← getArr o "symbols".toList
  let dflt ← optStr o "default".toList
  let ss ← strings "symbols".toList syms
  let aliases ← parseAliases o ns
  let doc ← optStr o "doc".toList
  .ok ⟨name, aliases, .enum ss doc dflt, o⟩

/-- `decodeFixedDefinition`, v10/parser/namespace.go:246-272. -/
def decodeFixed (ns : Str) (o : JObj) : Except PErr PDef := do
  let name ← avroName o ns
  let size ← getInt o "size".toList
  let aliases ← parseAliases o name.ns
  .ok ⟨name, aliases, .fixed size, o⟩

/-- What `decodeTypeDefinition` is to its callees: the name for a union, the enclosing namespace, the
JSON value. -/
abbrev Decoder := Str → Str → Json → NS → Except PErr PTy × NS

/-- The part of the loop of `decodeRecordDefinition` after the type of the field is known,
v10/parser/namespace.go:148-181. -/
def fieldRest (name : Str) (ty : PTy) (o : JObj) : Except PErr PField := do
  let doc ← optStr o "doc".toList
  let tags ← optStr o "golang.tags".toList
  let aliases ← fieldAliases o
  .ok ⟨name, ty, o.lookup "default".toList, aliases, doc, tags, o⟩

/-- One round of the loop of `decodeRecordDefinition`, v10/parser/namespace.go:127-183. -/
def decodeField (dec : Decoder) (ns : Str) : Json → NS → Except PErr PField × NS
  | .obj o, n =>
    match getStr o "name".toList with
    | .error e => (.error e, n)
    | .ok name =>
      match o.lookup "type".toList with
      | none => (.error (.required "type".toList), n)
      | some t =>
        match dec name ns t n with
        | (.error e, n') => (.error e, n')
        | (.ok ty, n') => (fieldRest name ty o, n')
  | _, n => (.error (.wrongType "fields".toList), n)

/-- The loop of `decodeRecordDefinition`, v10/parser/namespace.go:127-184. -/
def decodeFields (dec : Decoder) (ns : Str) : List Json → NS → Except PErr (List PField) × NS
  | [], n => (.ok [], n)
  | j :: js, n =>
    match decodeField dec ns j n with
    | (.error e, n') => (.error e, n')
    | (.ok f, n') =>
      match decodeFields dec ns js n' with
      | (.error e, n'') => (.error e, n'')
      | (.ok fs, n'') => (.ok (f :: fs), n'')

/-- The part of `decodeRecordDefinition` before the fields, v10/parser/namespace.go:108-124. -/
def recordHead (ns : Str) (o : JObj) : Except PErr (QName × Str × List Json) := do
  let name ← avroName o ns
  let doc ← optStr o "doc".toList
  let fields ← getArr o "fields".toList
  .ok (name, doc, fields)

/-- `decodeRecordDefinition`, v10/parser/namespace.go:98-192. -/
def decodeRecord (dec : Decoder) (ns : Str) (o : JObj) (n : NS) : Except PErr PDef × NS :=
  match recordHead ns o with
  | .error e => (.error e, n)
  | .ok (name, doc, fields) =>
    match decodeFields dec name.ns fields n with
    | (.error e, n') => (.error e, n')
    | (.ok fs, n') =>
      match parseAliases o name.ns with
      | .error e => (.error e, n')
      | .ok aliases => (.ok ⟨name, aliases, .record fs doc, o⟩, n')

/-- A definition, once decoded, is registered and becomes a reference:
v10/parser/namespace.go:325-335, 337-348, 350-361. -/
def registered : Except PErr PDef × NS → Except PErr PTy × NS
  | (.error e, n) => (.error e, n)
  | (.ok d, n) =>
    match register n d with
    | (.error e, n') => (.error e, n')
    | (.ok (), n') => (.ok (.ref d.name), n')

/-- Arrays and maps, v10/parser/namespace.go:299-323. -/
def itemOf (dec : Decoder) (name ns : Str) (o : JObj) (key : Str) (mk : PTy → Json → PTy) (n : NS) :
    Except PErr PTy × NS :=
  match o.lookup key with
  | none => (.error (.required key), n)
  | some j =>
    match dec name ns j n with
    | (.error e, n') => (.error e, n')
    | (.ok t, n') => (.ok (mk t (.obj o)), n')

/-- `decodeComplexDefinition`, v10/parser/namespace.go:293-367. -/
def decodeComplex (dec : Decoder) (name ns : Str) (o : JObj) (n : NS) : Except PErr PTy × NS :=
  match getStr o "type".toList with
  | .error e => (.error e, n)
  | .ok ty =>
    if ty = "array".toList then itemOf dec name ns o "items".toList .array n
    else if ty = "map".toList then itemOf dec name ns o "values".toList .map n
    else if ty = "enum".toList then registered (decodeEnum ns o, n)
    else if ty = "fixed".toList then registered (decodeFixed ns o, n)
    else if ty = "record".toList then registered (decodeRecord dec ns o n)
    else (.ok (typeByName ns ty (.obj o)), n)

/-- The loop of `decodeUnionDefinition`, v10/parser/namespace.go:275-283. -/
def decodeMembers (dec : Decoder) (name ns : Str) : List Json → NS → Except PErr (List PTy) × NS
  | [], n => (.ok [], n)
  | j :: js, n =>
    match dec name ns j n with
    | (.error e, n') => (.error e, n')
    | (.ok t, n') =>
      match decodeMembers dec name ns js n' with
      | (.error e, n'') => (.error e, n'')
      | (.ok ts, n'') => (.ok (t :: ts), n'')

/-- The name of a union type, v10/parser/namespace.go:285-289. -/
def unionName (short : Bool) (name : Str) : Str := if short then name ++ "Union".toList else []

/-- `decodeUnionDefinition`, v10/parser/namespace.go:274-291. -/
def decodeUnion (dec : Decoder) (name ns : Str) (js : List Json) (n : NS) : Except PErr PTy × NS :=
  match decodeMembers dec name ns js n with
  | (.error e, n') => (.error e, n')
  | (.ok ts, n') => (.ok (.union (unionName n.shortUnions name) ts js), n')

/-- `decodeTypeDefinition`, v10/parser/namespace.go:80-95. The first argument bounds the recursion. -/
def decodeType : Nat → Decoder
  | 0, _, _, _, n => (.error .deep, n)
  | _ + 1, _, ns, .str s, n => (.ok (typeByName ns s (.str s)), n)
  | k + 1, name, ns, .arr js, n => decodeUnion (decodeType k) name ns js n
  | k + 1, name, ns, .obj o, n => decodeComplex (decodeType k) name ns o n
  | _ + 1, _, _, _, n => (.error (.wrongType "type".toList), n)

mutual
/-- How deep a JSON value is nested. -/
def Json.depth : Json → Nat
  | .arr l => Json.depths l + 1
  | .obj l => Json.depthEntries l + 1
  | _ => 1
def Json.depths : List Json → Nat
  | [] => 0
  | j :: js => max j.depth (Json.depths js)
def Json.depthEntries : List (Str × Json) → Nat
  | [] => 0
  | (_, j) :: js => max j.depth (Json.depthEntries js)
end

/-- `TypeForSchema`, v10/parser/namespace.go:64-78, after `json.Unmarshal`. -/
def typeForSchema (n : NS) (j : Json) : Except PErr PTy × NS :=
  match decodeType j.depth "topLevel".toList [] j n with
  | (.error e, n') => (.error e, n')
  | (.ok t, n') => (.ok t, { n' with roots := n'.roots ++ [.file t] })

mutual
/-- `resolveReferences`, v10/resolver/resolver.go:20-40: the first reference without definition.
Setting `ref.Def` is not shown: afterwards a reference stands for its definition in the table. -/
def PTy.unresolved (n : NS) : PTy → Option QName
  | .ref q => match n.find q with
    | some _ => none
    | none => some q
  | .prim _ _ => none
  | .array t _ => t.unresolved n
  | .map t _ => t.unresolved n
  | .union _ ts _ => PTy.unresolvedAll n ts
def PTy.unresolvedAll (n : NS) : List PTy → Option QName
  | [] => none
  | t :: ts => match t.unresolved n with
    | some q => some q
    | none => PTy.unresolvedAll n ts
end

/-- `Children()`: record.go:163-169, enum.go:109, fixed.go:84, file_root.go:31. -/
def Root.children : Root → List PTy
  | .defn d => match d.kind with
    | .record fs _ => fs.map PField.ty
    | _ => []
  | .file t => [t]

/-- `ResolveDefinition` for every root, v10/compiler/compile.go:36-40 and
v10/cmd/gogen-avro/main.go:47-52. -/
def resolveRoots (n : NS) : List Root → Except PErr Unit
  | [] => .ok ()
  | r :: rs => match PTy.unresolvedAll n r.children with
    | some q => .error (.unresolved q)
    | none => resolveRoots n rs

/-- The table of definitions as the compiler sees it. -/
def NS.env (n : NS) : Env := n.defs.map fun e => (e.1, e.2.erase)

/-- `ParseSchema`, v10/compiler/compile.go:29-42. -/
def parseSchema (j : Json) : Except PErr Schema :=
  match typeForSchema {} j with
  | (.error e, _) => .error e
  | (.ok t, n) => match resolveRoots n n.roots with
    | .error e => .error e
    | .ok () => .ok ⟨n.env, t.erase⟩

/-- The gogen-avro command up to the generation of code, v10/cmd/gogen-avro/main.go:33-52: all files
into one namespace, then the references. -/
def parseFiles : List Json → NS → Except PErr Unit × NS
  | [], n => (.ok (), n)
  | j :: js, n => match typeForSchema n j with
    | (.error e, n') => (.error e, n')
    | (.ok _, n') => parseFiles js n'

/-- The whole of v10/cmd/gogen-avro/main.go:33-52. -/
def parseCommand (short : Bool) (js : List Json) : Except PErr NS :=
  match parseFiles js { shortUnions := short } with
  | (.error e, _) => .error e
  | (.ok (), n) => match resolveRoots n n.roots with
    | .error e => .error e
    | .ok () => .ok n

end Verif
