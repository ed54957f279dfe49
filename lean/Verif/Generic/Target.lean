import Verif.Spec.Generic
import Verif.Compiler.Compile
/-
The targets of package v10/generic: the methods of `types.Field` on its data types.

In Go a datum holds pointers to the data of its parts, and `Datum()` is called on the whole
at the end (v10/generic/serde.go:48). Here a part is stored, when it has been filled, as the result of
its `Datum()`: `none` if that panics. Nothing changes a part after it has been left, except
that `Get` and `AppendMap` may replace it by a new one.
-/
namespace Verif

/-- A target: v10/generic/{primitive,enum,array,map,union,record}.go. -/
inductive GTgt where
  /-- `primitiveDatum`, primitive.go:7-9 -/
  | prim (v : GVal)
  /-- `enumDatum`, enum.go:8-11 -/
  | enum (symbols : List Str) (v : Str)
  /-- `arrayDatum`, array.go:8-11 -/
  | array (item : Ty) (items : List (Option GVal))
  /-- `mapDatum`, map.go:8-11; the entries are listed in key order -/
  | map (item : Ty) (items : List (List Byte × Option GVal))
  /-- `unionDatum`, union.go:8-11; the outer `none` is the nil `datum` -/
  | union (ts : List Ty) (datum : Option (Option GVal))
  /-- `recordDatum`, record.go:8-11; `none` is a nil field, on which `Datum()` panics too -/
  | record (fs : List Field) (slots : List (Option GVal))
  /-- a reference that is not resolved; does not occur after `ParseSchema` -/
  | bad

/-- `DatumForType` and `datumForReference`, datum.go:13-39, with `newRecordDatum`,
record.go:13-18, and `newEnumDatum`, enum.go:13-17. -/
def GTgt.new (env : Env) (t : Ty) : GTgt :=
  match t with
  | .array t => .array t []
  | .map t => .map t []
  | .union ts => .union ts none
  | .ref q => match env.find q with
    | none => .bad
    | some d => match d.kind with
      | .record fs => .record fs (List.replicate fs.length none)
      | .enum ss _ => .enum ss []
      | .fixed _ => .prim .nil
  | _ => .prim .nil

/-- `Datum()`: primitive.go:11-13, enum.go:19-21, array.go:13-19, map.go:13-19,
union.go:13-15, record.go:20-26. `none`: it panics, because it calls `Datum()` on a nil
interface. -/
def GTgt.datum : GTgt → Option GVal
  | .prim v => some v
  | .enum _ v => some (.symbol v)
  | .array _ items => (allSome items).map .list
  | .map _ items => (allKeyed items).map .map
  | .union _ none => none
  | .union _ (some o) => o
  | .record fs slots => recordView fs slots
  | .bad => none

/-- The setters that store a value in a primitive (primitive.go:15-36), do nothing on arrays
and maps (array.go:21-28, map.go:21-28) and panic elsewhere. -/
def gSet (t : GTgt) (v : GVal) : Except Err GTgt :=
  match t with
  | .prim _ => .ok (.prim v)
  | .array item items => .ok (.array item items)
  | .map item items => .ok (.map item items)
  | _ => .error .panic

/-- `SetInt`: as the others, but an enum looks up the symbol, enum.go:24-26. -/
def gSetInt (t : GTgt) (v : BitVec 32) : Except Err GTgt :=
  match t with
  | .enum ss _ =>
    if v.toInt < 0 then .error .panic else
    match ss[v.toInt.toNat]? with
    | none => .error .panic
    | some s => .ok (.enum ss s)
  | t => gSet t (.int v)

/-- `SetLong`: as the others, but a union ignores it, union.go:19. -/
def gSetLong (t : GTgt) (v : BitVec 64) : Except Err GTgt :=
  match t with
  | .union ts d => .ok (.union ts d)
  | t => gSet t (.long v)

/-- `Get`: record.go:35-39, union.go:24-27; others panic. -/
def gGet (re : Env) (t : GTgt) (i : Int) : Except Err GTgt :=
  match t with
  | .record fs _ =>
    if i < 0 then .error .panic else
    match fs[i.toNat]? with
    | none => .error .panic
    | some f => .ok (.new re f.ty)
  | .union ts _ =>
    if i < 0 then .error .panic else
    match ts[i.toNat]? with
    | none => .error .panic
    | some ty => .ok (.new re ty)
  | _ => .error .panic

/-- What the parent holds once the datum made by `Get(i)` has been filled. -/
def gPut (t : GTgt) (i : Int) (s : GTgt) : GTgt :=
  match t with
  | .record fs slots => .record fs (slots.set i.toNat s.datum)
  | .union ts _ => .union ts (some s.datum)
  | t => t

/-- `SetDefault`: record.go:40-43; elsewhere it does nothing (primitive.go:38, array.go:31,
map.go:31, union.go:28, enum.go:33). A field without a default has
the default nil (`Field.Default`, v10/schema/field.go:113-115). -/
def gSetDefault (t : GTgt) (i : Int) : Except Err GTgt :=
  match t with
  | .record fs slots =>
    if i < 0 then .error .panic else
    match fs[i.toNat]? with
    | none => .error .panic
    | some f => .ok (.record fs (slots.set i.toNat (some (match f.dflt with
      | none => .nil
      | some j => .json j))))
  | t => .ok t

/-- `AppendMap`: map.go:33-40; others panic. -/
def gAppendMap (re : Env) (t : GTgt) (_k : List Byte) : Except Err GTgt :=
  match t with
  | .map item _ => .ok (.new re item)
  | _ => .error .panic

/-- The appended entry once it has been filled. -/
def gPutMap (t : GTgt) (k : List Byte) (s : GTgt) : GTgt :=
  match t with
  | .map item items => .map item (mapInsert k s.datum items)
  | t => t

/-- `AppendArray`: array.go:35-39; others panic. -/
def gAppendArray (re : Env) (t : GTgt) : Except Err GTgt :=
  match t with
  | .array item _ => .ok (.new re item)
  | _ => .error .panic

/-- The appended item once it has been filled. -/
def gPutArray (t : GTgt) (s : GTgt) : GTgt :=
  match t with
  | .array item items => .array item (items ++ [s.datum])
  | t => t

/-- `NullField`: record.go:47-49; nothing happens on primitives, arrays and maps
(primitive.go:46, array.go:41, map.go:44); unions and enums panic (union.go:31, enum.go:36). -/
def gNullField (t : GTgt) (i : Int) : Except Err GTgt :=
  match t with
  | .record fs slots =>
    if i < 0 ∨ slots.length ≤ i.toNat then .error .panic
    else .ok (.record fs (slots.set i.toNat (some .nil)))
  | .prim v => .ok (.prim v)
  | .array item items => .ok (.array item items)
  | .map item items => .ok (.map item items)
  | _ => .error .panic

/-- `HintSize`: array.go:42-46 makes a slice unless there is one; map.go:45 does nothing;
others panic. `make` panics for a negative size and for one above what can be allocated;
`lim` is that limit. -/
def gHintSize (lim : Nat) (t : GTgt) (c : BitVec 64) : Except Err GTgt :=
  match t with
  | .array item items =>
    if items = [] ∧ (c.toInt < 0 ∨ (lim : Int) < c.toInt) then .error .panic
    else .ok (.array item items)
  | .map item items => .ok (.map item items)
  | _ => .error .panic

/-- The targets of package generic, for definitions `re` and allocation limit `lim`.
`Finalize` does nothing (primitive.go:48, enum.go:38, array.go:47, map.go:46, union.go:33,
record.go:50). -/
def gOps (re : Env) (lim : Nat) : FieldOps GTgt where
  setBoolean t v := gSet t (.bool v)
  setInt := gSetInt
  setLong := gSetLong
  setFloat t v := gSet t (.float v)
  setDouble t v := gSet t (.double v)
  setBytes t v := gSet t (.bytes v)
  setString t v := gSet t (.string v)
  get := gGet re
  put := gPut
  setDefault := gSetDefault
  appendMap := gAppendMap re
  putMap := gPutMap
  appendArray := gAppendArray re
  putArray := gPutArray
  nullField := gNullField
  hintSize := gHintSize lim
  finalize := .ok

end Verif
