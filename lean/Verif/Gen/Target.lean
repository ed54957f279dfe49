import Verif.Compiler.Compile
import Verif.Gen.Val
import Verif.Go.Float
/-
The targets of generated code: the methods of `types.Field` on the wrappers of
v10/vm/types and of v10/generator/flat/templates.

Go targets are pointers into the value being built. Here a target is a state that
`FieldOps.put*` writes back into its parent when it is left (see `FieldOps`). A slot
that holds `none` is one that decoding has not assigned: in Go it holds whatever the
constructor left there.
-/
namespace Verif

/-- Targets without parts: the wrappers of v10/vm/types/*.go, templates/bytes.go,
templates/enum.go, templates/fixed.go. -/
inductive Leaf where
  | null | bool | int | long | float | double | bytes | string | enum
  | fixed (n : Nat)
  deriving DecidableEq

/-- A target. -/
inductive Tgt where
  | leaf (l : Leaf) (v : Option Val)
  /-- `ArrayXWrapper`, templates/array.go:27-29 -/
  | array (item : Ty) (items : List (Option Val))
  /-- `MapXWrapper`, templates/map.go:28-32: `keys != nil`, the pairs of `keys` and
  `values`, and the map itself -/
  | map (item : Ty) (hinted : Bool) (pend : List (List Byte × Option Val))
      (cur : Option (List (List Byte × Val)))
  /-- the union struct, templates/union.go:24-29: `UnionType` and a field for each
  member; `sel` is the member that was entered last -/
  | union (ts : List Ty) (tag : BitVec 64) (sel : Option Nat) (slots : List (Option Val))
  /-- the record struct, templates/record.go:17-26 -/
  | record (fs : List Field) (slots : List (Option Val))
  /-- a reference that is not resolved; does not occur after `ParseSchema` -/
  | bad

/-- Does the union have a null member? `NullIndex() >= 0`, templates/lookup.go:70-75 and
v10/schema/union.go:17-24. -/
def Ty.nullable : Ty → Bool
  | .union ts => ts.any Ty.isNull
  | _ => false

/-- What a constructor makes (`ConstructorMethod`): an empty array, map, union or record;
for the other types `v` is the value that is there. -/
def Tgt.new (env : Env) (t : Ty) (v : Option Val) : Tgt :=
  match t with
  | .null => .leaf .null v
  | .bool => .leaf .bool v
  | .int => .leaf .int v
  | .long => .leaf .long v
  | .float => .leaf .float v
  | .double => .leaf .double v
  | .bytes => .leaf .bytes v
  | .string => .leaf .string v
  | .array t => .array t []
  | .map t => .map t false [] (some [])
  | .union ts => .union ts 0 none (List.replicate ts.length none)
  | .ref q => match env.find q with
    | none => .bad
    | some d => match d.kind with
      | .record fs => .record fs (List.replicate fs.length none)
      | .enum _ _ => .leaf .enum v
      | .fixed n => .leaf (.fixed n.toNat) v

/-- The value a slot holds. -/
def slotAt (slots : List (Option Val)) (i : Nat) : Option Val :=
  match slots[i]? with
  | some v => v
  | none => none

/-- The value of a target, if everything in it has been assigned. Of a union that has been
entered, this is the member that `UnionType` selects, provided that it is the one entered
last. -/
def Tgt.val : Tgt → Option Val
  | .leaf .null _ => some .null
  | .leaf _ v => v
  | .array _ items => (allSome items).map .array
  | .map _ _ _ cur => cur.map .map
  | .union _ tag none _ => some (.union tag none)
  | .union _ tag (some j) slots =>
    if BitVec.ofInt 64 j = tag then (slotAt slots j).map fun x => .union tag (some x) else none
  | .record _ slots => (allSome slots).map .record
  | .bad => none

/-- `SetBoolean`: v10/vm/types/boolean.go:7-9; all others panic. -/
def genSetBoolean (t : Tgt) (v : Bool) : Except Err Tgt :=
  match t with
  | .leaf .bool _ => .ok (.leaf .bool (some (.bool v)))
  | _ => .error .panic

/-- `SetInt`: v10/vm/types/{int,long,float,double}.go:11-13, templates/enum.go:76-78. -/
def genSetInt (t : Tgt) (v : BitVec 32) : Except Err Tgt :=
  match t with
  | .leaf .int _ => .ok (.leaf .int (some (.int v)))
  | .leaf .long _ => .ok (.leaf .long (some (.long (v.signExtend 64))))
  | .leaf .float _ => .ok (.leaf .float (some (.float (intToFloat32 v.toInt))))
  | .leaf .double _ => .ok (.leaf .double (some (.double (intToFloat64 v.toInt))))
  | .leaf .enum _ => .ok (.leaf .enum (some (.enum v)))
  | _ => .error .panic

/-- `SetLong`: v10/vm/types/{long,float,double}.go:15-17; on a union it sets
`UnionType`, templates/union.go:113-119. -/
def genSetLong (t : Tgt) (v : BitVec 64) : Except Err Tgt :=
  match t with
  | .leaf .long _ => .ok (.leaf .long (some (.long v)))
  | .leaf .float _ => .ok (.leaf .float (some (.float (intToFloat32 v.toInt))))
  | .leaf .double _ => .ok (.leaf .double (some (.double (intToFloat64 v.toInt))))
  | .union ts _ sel slots => .ok (.union ts v sel slots)
  | _ => .error .panic

/-- `SetFloat`: v10/vm/types/{float,double}.go:19-21. -/
def genSetFloat (t : Tgt) (v : BitVec 32) : Except Err Tgt :=
  match t with
  | .leaf .float _ => .ok (.leaf .float (some (.float v)))
  | .leaf .double _ => .ok (.leaf .double (some (.double (float32To64 v))))
  | _ => .error .panic

/-- `SetDouble`: v10/vm/types/double.go:23-25. -/
def genSetDouble (t : Tgt) (v : BitVec 64) : Except Err Tgt :=
  match t with
  | .leaf .double _ => .ok (.leaf .double (some (.double v)))
  | _ => .error .panic

/-- The bytes an array `[n]byte` holds; zeros if nothing was assigned. -/
def fixedBytes (n : Nat) : Option Val → List Byte
  | some (.fixed bs) => bs
  | _ => List.replicate n 0

/-- `SetBytes`: v10/vm/types/string.go:31-33, templates/bytes.go:54-56; on a fixed it
copies over the bytes that are there, templates/fixed.go:42-44. -/
def genSetBytes (t : Tgt) (v : List Byte) : Except Err Tgt :=
  match t with
  | .leaf .bytes _ => .ok (.leaf .bytes (some (.bytes v)))
  | .leaf .string _ => .ok (.leaf .string (some (.string v)))
  | .leaf (.fixed n) old =>
    .ok (.leaf (.fixed n) (some (.fixed (v.take n ++ ((fixedBytes n old).take n).drop v.length))))
  | _ => .error .panic

/-- `SetString`: v10/vm/types/string.go:35-37, templates/bytes.go:58-60. -/
def genSetString (t : Tgt) (v : List Byte) : Except Err Tgt :=
  match t with
  | .leaf .bytes _ => .ok (.leaf .bytes (some (.bytes v)))
  | .leaf .string _ => .ok (.leaf .string (some (.string v)))
  | _ => .error .panic

/-- `Get`: templates/record.go:100-120, templates/union.go:120-139. -/
def genGet (re : Env) (t : Tgt) (i : Int) : Except Err Tgt :=
  match t with
  | .record fs slots =>
    if i < 0 then .error .panic else
    match fs[i.toNat]? with
    | none => .error .panic
    | some f => .ok (.new re f.ty (slotAt slots i.toNat))
  | .union ts _ _ slots =>
    if i < 0 then .error .panic else
    match ts[i.toNat]? with
    | none => .error .panic
    | some ty => .ok (.new re ty (slotAt slots i.toNat))
  | _ => .error .panic

/-- The sub-target of `Get(i)` is a pointer into the parent; this is what the parent
holds once it has been filled. -/
def genPut (t : Tgt) (i : Int) (s : Tgt) : Tgt :=
  match t with
  | .record fs slots => .record fs (slots.set i.toNat s.val)
  | .union ts tag _ slots => .union ts tag (some i.toNat) (slots.set i.toNat s.val)
  | t => t

/-- `SetDefault`: templates/record.go:122-133. `dv` gives the value that the code made by
`DefaultForField` assigns. -/
def genSetDefault (dv : Field → Val) (t : Tgt) (i : Int) : Except Err Tgt :=
  match t with
  | .record fs slots =>
    if i < 0 then .error .panic else
    match fs[i.toNat]? with
    | none => .error .panic
    | some f =>
      if f.dflt.isNone then .error .panic
      else .ok (.record fs (slots.set i.toNat (some (dv f))))
  | _ => .error .panic

/-- `AppendMap`: templates/map.go:66-78. -/
def genAppendMap (re : Env) (t : Tgt) (_k : List Byte) : Except Err Tgt :=
  match t with
  | .map item _ _ _ => .ok (.new re item none)
  | _ => .error .panic

/-- The appended entry once it has been filled; `append` makes `keys` non-nil. -/
def genPutMap (t : Tgt) (k : List Byte) (s : Tgt) : Tgt :=
  match t with
  | .map item _ pend cur => .map item true (pend ++ [(k, s.val)]) cur
  | t => t

/-- `AppendArray`: templates/array.go:56-67. -/
def genAppendArray (re : Env) (t : Tgt) : Except Err Tgt :=
  match t with
  | .array item _ => .ok (.new re item none)
  | _ => .error .panic

/-- The appended item once it has been filled. -/
def genPutArray (t : Tgt) (s : Tgt) : Tgt :=
  match t with
  | .array item items => .array item (items ++ [s.val])
  | t => t

/-- `NullField`: templates/record.go:135-146, array.go:48-54, map.go:52-58; unions
panic, union.go:140. -/
def genNullField (t : Tgt) (i : Int) : Except Err Tgt :=
  match t with
  | .record fs slots =>
    if i < 0 then .error .panic else
    match fs[i.toNat]? with
    | none => .error .panic
    | some f =>
      if f.ty.nullable then .ok (.record fs (slots.set i.toNat (some .nil))) else .error .panic
  | .array item items =>
    if item.nullable ∧ items ≠ [] then .ok (.array item (items.dropLast ++ [some .nil]))
    else .error .panic
  | .map item h pend cur =>
    if item.nullable then
      match pend.getLast? with
      | none => .error .panic
      | some (k, _) => .ok (.map item h (pend.dropLast ++ [(k, some .nil)]) cur)
    else .error .panic
  | _ => .error .panic

/-- `HintSize`: templates/array.go:43-47, map.go:45-50; others panic. `make` panics for a
negative size and for one above what can be allocated; `lim` is that limit. -/
def genHintSize (lim : Nat) (t : Tgt) (c : BitVec 64) : Except Err Tgt :=
  match t with
  | .array item items =>
    if items = [] ∧ (c.toInt < 0 ∨ (lim : Int) < c.toInt) then .error .panic
    else .ok (.array item items)
  | .map item h pend cur =>
    if h = false ∧ (c.toInt < 0 ∨ (lim : Int) < c.toInt) then .error .panic
    else .ok (.map item true pend cur)
  | _ => .error .panic

/-- The entries, if all are assigned. -/
def allEntries : List (List Byte × Option Val) → Option (List (List Byte × Val))
  | [] => some []
  | (_, none) :: _ => none
  | (k, some v) :: l => (allEntries l).map ((k, v) :: ·)

/-- `Finalize`: templates/map.go:60-64 assigns the entries in order; elsewhere it does
nothing. -/
def genFinalize (t : Tgt) : Except Err Tgt :=
  match t with
  | .map item h pend cur =>
    .ok (.map item h pend (match cur, allEntries pend with
      | some m, some es => some (mapInserts m es)
      | _, _ => none))
  | t => .ok t

/-- The targets of generated code, for definitions `re`, allocation limit `lim` and
default values `dv`. -/
def genOps (re : Env) (lim : Nat) (dv : Field → Val) : FieldOps Tgt where
  setBoolean := genSetBoolean
  setInt := genSetInt
  setLong := genSetLong
  setFloat := genSetFloat
  setDouble := genSetDouble
  setBytes := genSetBytes
  setString := genSetString
  get := genGet re
  put := genPut
  setDefault := genSetDefault dv
  appendMap := genAppendMap re
  putMap := genPutMap
  appendArray := genAppendArray re
  putArray := genPutArray
  nullField := genNullField
  hintSize := genHintSize lim
  finalize := genFinalize

end Verif
