import Verif.Spec.Datum
import Verif.Gen.Target
/-
What a datum written under one schema is when read under another: Avro's schema
resolution ("Schema Resolution" in the Avro specification), with the result given as
the value of the generated Go type.

* `we`, `re`: the writer's and the reader's definitions;
* `dv`: the Go value of a field's declared default;
* `drop`: which data may be left out when the reader has no field for it. Avro's rule is
  `fun _ => true`; see `Datum.skippable` for what the code does.
-/
namespace Verif

/-- A writer type that is no union, read by a union: the first member that can read it.
`f` reads it as a member, or as `r` when that is not a union. -/
def intoReader (we re : Env) (w : Ty) (f : Ty → Option Val) (r : Ty) : Option Val :=
  match r with
  | .union rs => match findIdx (w.readableBy we re) 0 rs with
    | some (j, r') => (f r').map fun v => .union (BitVec.ofInt 64 j) (some v)
    | none => none
  | r => f r

/-- The reader's member for the member `t` of the writer's union: the one of the same
type name, else the first that can read it. -/
def pickBranch (we re : Env) (t : Ty) (rs : List Ty) : Option (Nat × Ty) :=
  match findIdx (fun r => r.goName re == t.goName we) 0 rs with
  | some x => some x
  | none => findIdx (t.readableBy we re) 0 rs

/-- Null read as `r`. -/
def readNull : Ty → Option Val
  | .null => some .null
  | r => if r.nullable then some .nil else none

/-- A Boolean read as `r`. -/
def boolAs (b : Bool) : Ty → Option Val
  | .bool => some (.bool b)
  | _ => none

/-- An int read as `r`: promoted to long, float, double. -/
def intAs (v : BitVec 32) : Ty → Option Val
  | .int => some (.int v)
  | .long => some (.long (v.signExtend 64))
  | .float => some (.float (intToFloat32 v.toInt))
  | .double => some (.double (intToFloat64 v.toInt))
  | _ => none

/-- A long read as `r`: promoted to float, double. -/
def longAs (v : BitVec 64) : Ty → Option Val
  | .long => some (.long v)
  | .float => some (.float (intToFloat32 v.toInt))
  | .double => some (.double (intToFloat64 v.toInt))
  | _ => none

/-- A float read as `r`: promoted to double. -/
def floatAs (v : BitVec 32) : Ty → Option Val
  | .float => some (.float v)
  | .double => some (.double (float32To64 v))
  | _ => none

/-- A double read as `r`. -/
def doubleAs (v : BitVec 64) : Ty → Option Val
  | .double => some (.double v)
  | _ => none

/-- Bytes or a string read as `r`: either way round. -/
def octetsAs (bs : List Byte) : Ty → Option Val
  | .bytes => some (.bytes bs)
  | .string => some (.string bs)
  | _ => none

/-- A definition of the writer read as `r`, which must be a reference to a definition of
the reader that can read it. -/
def defAs (we re : Env) (q : QName) (k : DefKind → DefKind → Option Val) : Ty → Option Val
  | .ref q' => match we.find q, re.find q' with
    | some wd, some rd => if wd.readableBy rd then k wd.kind rd.kind else none
    | _, _ => none
  | _ => none

/-- The reader's symbol for a symbol of the writer: of the same name, else the default. -/
def symbolAs (rSyms : List Str) (rDflt : Str) (s : Str) : Option Val :=
  match symbolIndex rSyms s with
  | some k => some (.enum (BitVec.ofInt 32 k))
  | none =>
    if rDflt ≠ [] then (symbolIndex rSyms rDflt).map fun k => .enum (BitVec.ofInt 32 k) else none

/-- An enum datum read as an enum. -/
def enumAs (i : Int) : DefKind → DefKind → Option Val
  | .enum ws _, .enum rs d =>
    match (if 0 ≤ i then ws[i.toNat]? else none) with
    | some s => symbolAs rs d s
    | none => none
  | _, _ => none

/-- A fixed datum read as a fixed (of the same size: `Def.readableBy`). -/
def fixedAs (bs : List Byte) : DefKind → DefKind → Option Val
  | .fixed _, .fixed _ => some (.fixed bs)
  | _, _ => none

/-- The fields of a reader's record: what the writer gave, else the default. -/
def fillDefaults (dv : Field → Val) : List Field → List (Option Val) → Option (List Val)
  | [], [] => some []
  | _ :: fs, some v :: s => (fillDefaults dv fs s).map (v :: ·)
  | f :: fs, none :: s => if f.dflt.isSome then (fillDefaults dv fs s).map (dv f :: ·) else none
  | _, _ => none

section
variable (drop : Datum → Bool) (dv : Field → Val) (we re : Env)

mutual
/-- The datum `d`, written with type `w`, read as type `r`. -/
def resolve : Datum → Ty → Ty → Option Val
  | .null, w, r => if w.isNull then readNull r else none
  | .bool b, w, r => match w with
    | .bool => intoReader we re .bool (boolAs b) r
    | _ => none
  | .int v, w, r => match w with
    | .int => intoReader we re .int (intAs v) r
    | _ => none
  | .long v, w, r => match w with
    | .long => intoReader we re .long (longAs v) r
    | _ => none
  | .float v, w, r => match w with
    | .float => intoReader we re .float (floatAs v) r
    | _ => none
  | .double v, w, r => match w with
    | .double => intoReader we re .double (doubleAs v) r
    | _ => none
  | .bytes bs, w, r => match w with
    | .bytes => intoReader we re .bytes (octetsAs bs) r
    | _ => none
  | .string bs, w, r => match w with
    | .string => intoReader we re .string (octetsAs bs) r
    | _ => none
  | .fixed bs, w, r => match w with
    | .ref q => intoReader we re (.ref q) (defAs we re q (fixedAs bs)) r
    | _ => none
  | .enum i, w, r => match w with
    | .ref q => intoReader we re (.ref q) (defAs we re q (enumAs i)) r
    | _ => none
  | .array ds, w, r => match w with
    | .array wi => intoReader we re (.array wi) (fun
        | .array ri => (resolveItems ds wi ri).map .array
        | _ => none) r
    | _ => none
  | .map es, w, r => match w with
    | .map wi => intoReader we re (.map wi) (fun
        | .map ri => (resolveEntries es wi ri).map fun vs => .map (mapOf vs)
        | _ => none) r
    | _ => none
  | .union i d, w, r => match w with
    | .union ts => match ts[i]? with
      | none => none
      | some t =>
        if t.isNull then readNull r
        else match r with
          | .union rs => match pickBranch we re t rs with
            | none => none
            | some (j, r') => (resolve d t r').map fun v => .union (BitVec.ofInt 64 j) (some v)
          | r => if t.readableBy we re r then resolve d t r else none
    | _ => none
  | .record ds, w, r => match w with
    | .ref q => intoReader we re (.ref q) (defAs we re q fun
        | .record wfs, .record rfs =>
          match resolveFields ds wfs rfs (List.replicate rfs.length none) with
          | none => none
          | some slots => (fillDefaults dv rfs slots).map .record
        | _, _ => none) r
    | _ => none
/-- The items of an array. -/
def resolveItems : List Datum → Ty → Ty → Option (List Val)
  | [], _, _ => some []
  | d :: ds, w, r => match resolve d w r with
    | none => none
    | some v => (resolveItems ds w r).map (v :: ·)
/-- The entries of a map. -/
def resolveEntries : List (List Byte × Datum) → Ty → Ty → Option (List (List Byte × Val))
  | [], _, _ => some []
  | (k, d) :: es, w, r => match resolve d w r with
    | none => none
    | some v => (resolveEntries es w r).map ((k, v) :: ·)
/-- The fields of a record: each is stored in the reader's field of the same name or with
that alias, and dropped if there is none. -/
def resolveFields : List Datum → List Field → List Field → List (Option Val) →
    Option (List (Option Val))
  | [], ws, _, slots => match ws with
    | [] => some slots
    | _ :: _ => none
  | d :: ds, ws, rfs, slots => match ws with
    | [] => none
    | w :: ws => match fieldByName rfs w.name with
      | none => if drop d then resolveFields ds ws rfs slots else none
      | some (i, rf) =>
        if w.ty.readableBy we re rf.ty then
          match resolve d w.ty rf.ty with
          | none => none
          | some v => resolveFields ds ws rfs (slots.set i (some v))
        else none
end
end

mutual
/-- No array or map with entries occurs in the datum. Other data cannot be skipped by
compiled programs when generated types are the target: `HintSize` panics on a record
(templates/record.go:150). -/
def Datum.skippable : Datum → Bool
  | .array ds => ds.isEmpty
  | .map es => es.isEmpty
  | .union _ d => d.skippable
  | .record ds => Datum.allSkippable ds
  | _ => true
def Datum.allSkippable : List Datum → Bool
  | [] => true
  | d :: ds => d.skippable && Datum.allSkippable ds
end

end Verif
