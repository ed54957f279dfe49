import Verif.Gen.Target
import Verif.Gen.Names
import Verif.Util.Bytes
import Verif.Canonical.Form
import Verif.Go.Literal
/-
Default values: the constructors of generated code and the statements that
`DefaultValue` (v10/schema/*.go) writes into them and into `SetDefault`.

The generator prints Go statements that assign to an `lvalue`. Here the statements are
run at once: `applyDefault` takes what the lvalue holds and gives what it holds afterwards.
-/
namespace Verif

/-- Why no value comes out. The first reason met in the order of the statements is given; when
there are several, the generator's come before the compiler's and those before run time. -/
inductive DefErr where
  /-- `DefaultValue` returns an error: the generator stops with a message -/
  | gen
  /-- the generator panics -/
  | crash
  /-- the Go compiler refuses the generated statement -/
  | build
  /-- the statement panics when it is run -/
  | panic
  /-- the constructor calls itself without end (the model's fuel) -/
  | deep
  deriving DecidableEq

abbrev Made := Except DefErr

/-- `getConstructableForType`, v10/schema/constructable.go:7-17: arrays, maps, unions and references
to records have a `ConstructorMethod` (array.go:55, map.go:55, union.go:156, record.go:76). -/
def Ty.constructable (env : Env) : Ty → Bool
  | .array _ => true
  | .map _ => true
  | .union _ => true
  | .ref q => match env.find q with
    | some d => match d.kind with
      | .record _ => true
      | _ => false
    | none => false
  | _ => false

/-- `hasNullDefault`, v10/generator/flat/templates/lookup.go:77-82: null is the first member. -/
def Ty.nullFirst : Ty → Bool
  | .union (t :: _) => t.isNull
  | _ => false

/-- Go's zero value, for the types without constructor; the others do not get here. -/
def zeroVal (env : Env) : Ty → Val
  | .null => .null
  | .bool => .bool false
  | .int => .int 0
  | .long => .long 0
  | .float => .float 0
  | .double => .double 0
  | .bytes => .bytes []
  | .string => .string []
  | .ref q => match env.find q with
    | some d => match d.kind with
      | .fixed n => .fixed (List.replicate n.toNat 0)
      | _ => .enum 0
    | none => .null
  | _ => .nil

/-- The value of the constant that `EnumDefinition.DefaultValue` names, v10/schema/enum.go:91-97, among
the constants of the type, templates/enum.go. None or several of that name: the code does not compile. -/
def symbolConst (nm : Namer) (type : Str) (syms : List Str) (s : Str) : Option (BitVec 32) :=
  match (List.range syms.length).filter fun i =>
      (syms[i]?).map (symbolGoName nm type) = some (symbolGoName nm type s) with
  | [i] => some (BitVec.ofNat 32 i)
  | _ => none

/-- The compiler accepts the assignment, or refuses it. -/
def orBuild {α : Type} : Option α → Made α
  | some v => .ok v
  | none => .error .build

/-- A number assigned to an `int32` or `int64`: v10/schema/int.go:21-27, long.go:21-27. -/
def intDefault (w : Nat) (j : Json) : Made (BitVec w) :=
  match j.number with
  | none => .error .gen
  | some (a, d) => orBuild (constInt w (literal a d).1 (literal a d).2)

/-- A number assigned to a `float32` or `float64`: v10/schema/float.go:21-27, double.go:21-26. -/
def floatDefault (F : Fmt) (j : Json) : Made (BitVec F.width) :=
  match j.number with
  | none => .error .gen
  | some (a, d) => orBuild (constFloat F (literal a d).1 (literal a d).2)

/-- `copy(lvalue[:], []byte(s))`, v10/schema/fixed.go:70: the bytes of the Go string. -/
def copyOver (bs : List Byte) (s : List Byte) : List Byte := s.take bs.length ++ bs.drop s.length

/-- The lvalue holds something; it is not a missing map entry. -/
def present : Option Val → Made Val
  | some v => .ok v
  | none => .error .panic

/-- The loop of `ArrayField.DefaultValue`, v10/schema/array.go:66-77: construct an item, then set it. -/
def applyItems (mk : Made Val) (ap : Json → Option Val → Made (Option Val)) : List Json → Made (List Val)
  | [] => .ok []
  | j :: js => do
    let v0 ← mk
    let v ← ap j (some v0) >>= present
    let vs ← applyItems mk ap js
    return v :: vs

/-- The loop of `MapField.DefaultValue`, v10/schema/map.go:66-72. The map is not made anew; an entry is
not constructed. An item statement that assigns nothing leaves the key out. -/
def applyEntries (ap : Json → Option Val → Made (Option Val)) : List (Str × Json) → List (List Byte × Val) →
    Made (List (List Byte × Val))
  | [], m => .ok m
  | (k, j) :: kvs, m => do
    match ← ap j (mapGet m (utf8 k)) with
    | some v => applyEntries ap kvs (mapInsert (utf8 k) v m)
    | none => applyEntries ap kvs m

/-- The same where the lvalue is an entry that is missing, that is a nil map: assigning to it panics. -/
def applyNilMap (ap : Json → Made (Option Val)) : List (Str × Json) → Made Unit
  | [] => .ok ()
  | (_, j) :: kvs => do
    match ← ap j with
    | some _ => .error .panic
    | none => applyNilMap ap kvs

/-- The statements for a field of a record, which every record has. -/
def onField (ap : Option Val → Made (Option Val)) (cur : Option Val) : Made Val :=
  present cur >>= fun v => ap (some v) >>= present

/-- The loop of `RecordDefinition.DefaultValue`, v10/schema/record.go:108-116. A key that is no field
makes `field` nil, and `field.Type()` panics. -/
def applyFields (fs : List Field) (ap : Json → Ty → Option Val → Made (Option Val)) : List (Str × Json) → List Val →
    Made (List Val)
  | [], vs => .ok vs
  | (k, j) :: kvs, vs =>
    match fieldByName fs k with
    | none => .error .crash
    | some (i, f) => do
      let v ← onField (ap j f.ty) vs[i]?
      applyFields fs ap kvs (vs.set i v)

/-- The same where the record is a map entry: Go does not let a field of a map entry be assigned. -/
def applyEntryFields (fs : List Field) (ap : Json → Ty → Made (Option Val)) : List (Str × Json) → Made Unit
  | [] => .ok ()
  | (k, j) :: kvs =>
    match fieldByName fs k with
    | none => .error .crash
    | some (_, f) => do
      match ← ap j f.ty with
      | some _ => .error .build
      | none => applyEntryFields fs ap kvs

/-- A field as its record's constructor first sets it, v10/generator/flat/templates/record.go:33-37: it
is constructed unless its default is nil. -/
def freshField (mk : Ty → Made Val) (f : Field) : Made Val :=
  if f.ty.nullFirst then .ok .nil else mk f.ty

/-- `DefaultForField`, v10/schema/record.go:80-82, if the field has a default. -/
def fieldDefault (ap : Json → Ty → Option Val → Made (Option Val)) (f : Field) (v0 : Val) : Made Val :=
  match f.dflt with
  | none => .ok v0
  | some j => ap j f.ty (some v0) >>= present

/-- The body of a record's constructor, v10/generator/flat/templates/record.go:30-43. -/
def newFields (mk : Ty → Made Val) (ap : Json → Ty → Option Val → Made (Option Val)) : List Field → Made (List Val)
  | [] => .ok []
  | f :: fs => do
    let v0 ← freshField mk f
    let v ← fieldDefault ap f v0
    let vs ← newFields mk ap fs
    return v :: vs

mutual
/-- What `ConstructorMethod` gives: array.go:55-57, map.go:55-57, templates/union.go:53-61,
templates/record.go:30-43; for the other types the zero value. -/
def construct (nm : Namer) (env : Env) : Nat → Ty → Made Val
  | 0, _ => .error .deep
  | n + 1, t => match t with
    | .array _ => .ok (.array [])
    | .map _ => .ok (.map [])
    | .union _ => .ok (.union 0 none)
    | .ref q => match env.find q with
      | none => .error .crash
      | some d => match d.kind with
        | .record fs => (newFields (construct nm env n) (fun j t => applyDefault nm env n j t true) fs).map .record
        | _ => .ok (zeroVal env t)
    | t => .ok (zeroVal env t)

/-- `DefaultValue(lvalue, rvalue)`, v10/schema/*.go, run on an lvalue that holds `cur` (`none`: a map
entry that is not there). `addr`: parts of the lvalue can be assigned to; entries of maps are not
addressable. -/
def applyDefault (nm : Namer) (env : Env) : Nat → Json → Ty → Bool → Option Val → Made (Option Val)
  | 0, _, _, _, _ => .error .deep
  | n + 1, j, t, addr, cur => match t with
    -- null.go:17-19: no statement
    | .null => .ok cur
    -- bool.go:21-27
    | .bool => match j with
      | .bool b => .ok (some (.bool b))
      | _ => .error .gen
    | .int => (intDefault 32 j).map fun v => some (.int v)
    | .long => (intDefault 64 j).map fun v => some (.long v)
    | .float => (floatDefault single j).map fun v => some (.float v)
    | .double => (floatDefault double j).map fun v => some (.double v)
    -- bytes.go:23-31
    | .bytes => match j with
      | .str s => .ok (some (.bytes (decodeByteString s)))
      | _ => .error .gen
    -- string.go:21-27
    | .string => match j with
      | .str s => .ok (some (.string (utf8 s)))
      | _ => .error .gen
    -- array.go:59-79
    | .array it => match j with
      | .arr js => (applyItems (construct nm env n it) (fun j => applyDefault nm env n j it true) js).map fun vs => some (.array vs)
      | _ => .error .gen
    -- map.go:59-74
    | .map it => match j with
      | .obj kvs => match cur with
        | some (.map m) => (applyEntries (fun j => applyDefault nm env n j it false) kvs m).map fun m => some (.map m)
        | _ => (applyNilMap (fun j => applyDefault nm env n j it false none) kvs).map fun _ => cur
      | _ => .error .gen
    -- union.go:112-125; only a union with null is a pointer, through which a map entry can be changed
    | .union ts => match ts with
      | [] => .error .crash
      | t :: _ =>
        if t.isNull then .ok (some .nil)
        else if addr = false ∧ ts.any Ty.isNull = false then .error .build
        else do
          let v0 ← construct nm env n t
          let v ← applyDefault nm env n j t true (some v0)
          return some (.union 0 v)
    -- reference.go:35-37
    | .ref q => match env.find q with
      | none => .error .crash
      | some d => match d.kind with
        -- enum.go:91-97
        | .enum syms _ => match j with
          | .str s => (orBuild (symbolConst nm (nm.publicName d.name.str) syms s)).map fun v => some (.enum v)
          | _ => .error .gen
        -- fixed.go:65-71; an entry of a map cannot be sliced
        | .fixed _ => match j with
          | .str s => match addr, cur with
            | true, some (.fixed bs) => .ok (some (.fixed (copyOver bs (utf8 s))))
            | _, _ => .error .build
          | _ => .error .gen
        -- record.go:105-118; `rvalue.(map[string]interface{})` panics for other values
        | .record fs => match j with
          | .obj kvs => match addr, cur with
            | true, some (.record vs) => (applyFields fs (fun j t => applyDefault nm env n j t true) kvs vs).map fun vs => some (.record vs)
            | _, _ => (applyEntryFields fs (fun j t => applyDefault nm env n j t false none) kvs).map fun _ => cur
          | _ => .error .crash
end

/-- `SetDefault(i)` of a generated record, v10/generator/flat/templates/record.go:122-133, on a record
that holds `vs`. -/
def setDefaultOf (nm : Namer) (env : Env) (n : Nat) (fs : List Field) (vs : List Val) (i : Nat) : Made (List Val) :=
  match fs[i]? with
  | none => .error .panic
  | some f => match f.dflt with
    | none => .error .panic
    | some j => do
      let v ← onField (applyDefault nm env n j f.ty true) vs[i]?
      return vs.set i v

end Verif
