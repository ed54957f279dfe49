import Verif.VM.Steps
import Verif.Generic.Target
import Verif.Generic.Decode
import Verif.Spec.Heap
/-
The targets of package v10/generic as objects in memory, and `Deserialize` of its `Codec` one step at a time.

In Generic/Target.lean a part of a datum is stored as the result of its `Datum()`. Here it is as in Go: a datum is an
object, a part is stored as the address of its datum when `Get`, `AppendMap` or `AppendArray` make it, and
`Datum()` is called on the whole at the end.
-/
namespace Verif

/-- A datum: v10/generic/{primitive,enum,array,map,union,record}.go. A part is the address of its datum, `none`
is the nil interface. Simplifications: the array that the slice `items` or `fields` refers to is part of the datum (no other
slice refers to it), and so is the map `items`, whose entries are listed in key order. -/
inductive GDat where
  /-- `primitiveDatum`, primitive.go:7-9 -/
  | prim (value : HVal)
  /-- `enumDatum`, enum.go:8-11 -/
  | enum (symbols : List Str) (value : Str)
  /-- `arrayDatum`, array.go:8-11 -/
  | array (item : Ty) (items : List Nat)
  /-- `mapDatum`, map.go:8-11 -/
  | map (item : Ty) (items : List (List Byte × Nat))
  /-- `unionDatum`, union.go:8-11 -/
  | union (ts : List Ty) (datum : Option Nat)
  /-- `recordDatum`, record.go:8-11 -/
  | record (fs : List Field) (fields : List (Option Nat))
  /-- a reference that is not resolved; does not occur after `ParseSchema` -/
  | bad

/-- An object: a datum, or one that a value of type `interface{}` refers to. -/
inductive GCell where
  | datum (d : GDat)
  | obj (o : Obj)

/-- The objects, by address. Nothing is ever freed. -/
abbrev GHeap := List GCell

/-- Memory as a program sees it that has no datum. -/
def GCell.seen : GCell → Obj
  | .datum _ => .list []
  | .obj o => o
def seen (h : GHeap) : Heap := h.map GCell.seen

/-- `DatumForType` and `datumForReference`, datum.go:13-39, with `newRecordDatum`,
record.go:13-18, and `newEnumDatum`, enum.go:13-17. -/
def GDat.new (env : Env) (t : Ty) : GDat :=
  match t with
  | .array t => .array t []
  | .map t => .map t []
  | .union ts => .union ts none
  | .ref q => match env.find q with
    | none => .bad
    | some d => match d.kind with
      | .record fs => .record fs (List.replicate fs.length none)
      | .enum ss _ => .enum ss []
      | .fixed _ => .prim (.atom .nil)
  | _ => .prim (.atom .nil)

/-- The datum at an address. -/
def GHeap.datum (h : GHeap) (a : Nat) : Option GDat :=
  match h[a]? with
  | some (.datum d) => some d
  | _ => none

/-- A target, and memory. -/
abbrev GState := Nat × GHeap

/-- The datum at `s.1` becomes `d`. -/
def GState.store (s : GState) (d : GDat) : GState := (s.1, s.2.set s.1 (.datum d))

/-- A new datum `c`, and the datum at `s.1` becomes `d`, which may refer to it: its address is the number of objects there were. -/
def GState.make (s : GState) (c d : GDat) : GHeap := (s.2 ++ [GCell.datum c]).set s.1 (.datum d)

/-- The setters that store a value in a primitive (primitive.go:15-36), do nothing on arrays
and maps (array.go:21-28, map.go:21-28) and panic elsewhere. -/
def pSet (s : GState) (v : GVal) : Except Err GState :=
  match s.2.datum s.1 with
  | some (.prim _) => .ok (s.store (.prim (.atom v)))
  | some (.array _ _) => .ok s
  | some (.map _ _) => .ok s
  | _ => .error .panic

/-- `SetBytes`: as the others (primitive.go:30-32). The array of the slice has been made when the bytes were read
(`readBytes`, `readFixed`, v10/vm/readers.go); here it comes into being when it is stored. -/
def pSetBytes (s : GState) (bs : List Byte) : Except Err GState :=
  match s.2.datum s.1 with
  | some (.prim _) => .ok (s.1, (s.2 ++ [GCell.obj (.bytes bs)]).set s.1 (.datum (.prim (.ref s.2.length))))
  | some (.array _ _) => .ok s
  | some (.map _ _) => .ok s
  | _ => .error .panic

/-- `SetInt`: as the others, but an enum looks up the symbol, enum.go:24-26. -/
def pSetInt (s : GState) (v : BitVec 32) : Except Err GState :=
  match s.2.datum s.1 with
  | some (.enum ss _) =>
    if v.toInt < 0 then .error .panic else
    match ss[v.toInt.toNat]? with
    | none => .error .panic
    | some y => .ok (s.store (.enum ss y))
  | _ => pSet s (.int v)

/-- `SetLong`: as the others, but a union ignores it, union.go:19. -/
def pSetLong (s : GState) (v : BitVec 64) : Except Err GState :=
  match s.2.datum s.1 with
  | some (.union _ _) => .ok s
  | _ => pSet s (.long v)

/-- `Get`: record.go:35-39, union.go:24-27; others panic. -/
def pGet (re : Env) (s : GState) (i : Int) : Except Err GState :=
  match s.2.datum s.1 with
  | some (.record fs slots) =>
    if i < 0 then .error .panic else
    match fs[i.toNat]? with
    | none => .error .panic
    | some f => .ok (s.2.length, s.make (.new re f.ty) (.record fs (slots.set i.toNat (some s.2.length))))
  | some (.union ts _) =>
    if i < 0 then .error .panic else
    match ts[i.toNat]? with
    | none => .error .panic
    | some ty => .ok (s.2.length, s.make (.new re ty) (.union ts (some s.2.length)))
  | _ => .error .panic

/-- `SetDefault`: record.go:40-43; elsewhere it does nothing (primitive.go:38, array.go:31,
map.go:31, union.go:28, enum.go:33). `dflt f` is what the field `f` of the parsed schema holds as its default
(`Field.Default`, v10/schema/field.go:113-115): it is assigned, not copied. A field without one has the default nil.
Simplification: two fields of the schema that agree in everything are one here. -/
def pSetDefault (dflt : Field → HVal) (s : GState) (i : Int) : Except Err GState :=
  match s.2.datum s.1 with
  | some (.record fs slots) =>
    if i < 0 then .error .panic else
    match fs[i.toNat]? with
    | none => .error .panic
    | some f => .ok (s.1, s.make (.prim (match f.dflt with
      | none => .atom .nil
      | some _ => dflt f)) (.record fs (slots.set i.toNat (some s.2.length))))
  | _ => .ok s

/-- `AppendMap`: map.go:33-40; others panic. -/
def pAppendMap (re : Env) (s : GState) (k : List Byte) : Except Err GState :=
  match s.2.datum s.1 with
  | some (.map item items) => .ok (s.2.length, s.make (.new re item) (.map item (mapInsert k s.2.length items)))
  | _ => .error .panic

/-- `AppendArray`: array.go:35-39; others panic. -/
def pAppendArray (re : Env) (s : GState) : Except Err GState :=
  match s.2.datum s.1 with
  | some (.array item items) => .ok (s.2.length, s.make (.new re item) (.array item (items ++ [s.2.length])))
  | _ => .error .panic

/-- `NullField`: record.go:47-49; nothing happens on primitives, arrays and maps
(primitive.go:46, array.go:41, map.go:44); unions and enums panic (union.go:31, enum.go:36). -/
def pNullField (s : GState) (i : Int) : Except Err GState :=
  match s.2.datum s.1 with
  | some (.record fs slots) =>
    if i < 0 ∨ slots.length ≤ i.toNat then .error .panic
    else .ok (s.1, s.make (.prim (.atom .nil)) (.record fs (slots.set i.toNat (some s.2.length))))
  | some (.prim _) => .ok s
  | some (.array _ _) => .ok s
  | some (.map _ _) => .ok s
  | _ => .error .panic

/-- `HintSize`: array.go:42-46 makes a slice unless there is one; map.go:45 does nothing;
others panic. `make` panics for a negative size and for one above what can be allocated;
`lim` is that limit. As in Generic/Target.lean, a slice without items is taken for nil. -/
def pHintSize (lim : Nat) (s : GState) (c : BitVec 64) : Except Err GState :=
  match s.2.datum s.1 with
  | some (.array _ items) =>
    if items = [] ∧ (c.toInt < 0 ∨ (lim : Int) < c.toInt) then .error .panic
    else .ok s
  | some (.map _ _) => .ok s
  | _ => .error .panic

/-- The targets of package generic in memory, for definitions `re`, allocation limit `lim` and the variables `dflt` of the parsed
schema. `Finalize` does nothing (primitive.go:48, enum.go:38, array.go:47, map.go:46, union.go:33, record.go:50). -/
def placeOps (re : Env) (lim : Nat) (dflt : Field → HVal) : FieldOps GState where
  setBoolean s v := pSet s (.bool v)
  setInt := pSetInt
  setLong := pSetLong
  setFloat s v := pSet s (.float v)
  setDouble s v := pSet s (.double v)
  setBytes := pSetBytes
  setString s v := pSet s (.string v)
  get := pGet re
  put s _ c := (s.1, c.2)
  setDefault := pSetDefault dflt
  appendMap := pAppendMap re
  putMap s _ c := (s.1, c.2)
  appendArray := pAppendArray re
  putArray s c := (s.1, c.2)
  nullField := pNullField
  hintSize := pHintSize lim
  finalize := .ok

theorem placeOps_inPlace (re : Env) (lim : Nat) (dflt : Field → HVal) : (placeOps re lim dflt).InPlace :=
  ⟨fun _ _ _ _ => rfl, fun _ _ _ _ => rfl, fun _ _ _ => rfl⟩

/-- `f` for one address after the other, if it does not panic. -/
def eachDatum (f : Nat → GHeap → Option (HVal × GHeap)) : List Nat → GHeap → Option (List HVal × GHeap)
  | [], h => some ([], h)
  | a :: as, h => match f a h with
    | none => none
    | some (v, h1) => match eachDatum f as h1 with
      | none => none
      | some (vs, h2) => some (v :: vs, h2)

/-- `Datum()`: primitive.go:11-13, enum.go:19-21, array.go:13-19, map.go:13-19, union.go:13-15,
record.go:20-26. `none`: it panics, because it calls `Datum()` on a nil interface. The first argument bounds the depth of
the calls. The slice or map that is returned is made before its items in Go; here after them, which
only makes a difference to which address is whose. -/
def datumAt : Nat → Nat → GHeap → Option (HVal × GHeap)
  | 0, _, _ => none
  | n + 1, a, h => match h.datum a with
    | some (.prim v) => some (v, h)
    | some (.enum _ y) => some (.atom (.symbol y), h)
    | some (.array _ items) => match eachDatum (datumAt n) items h with
      | none => none
      | some (vs, h1) => some (.ref h1.length, h1 ++ [.obj (.list vs)])
    | some (.map _ items) => match eachDatum (datumAt n) (items.map (·.2)) h with
      | none => none
      | some (vs, h1) => some (.ref h1.length, h1 ++ [.obj (.map ((items.map (·.1)).zip vs))])
    | some (.union _ none) => none
    | some (.union _ (some b)) => datumAt n b h
    | some (.record fs fields) => match allSome fields with
      | none => none
      | some bs => match eachDatum (datumAt n) bs h with
        | none => none
        | some (vs, h1) => some (.ref h1.length, h1 ++ [.obj (.record ((fs.map (·.name)).zip vs))])
    | some .bad => none
    | none => none

/-- `datum := DatumForType(c.t)`, serde.go:43. -/
def newG (env : Env) (root : Ty) (h : GHeap) : Except Err (Nat × GHeap) := .ok (h.length, h ++ [.datum (.new env root)])

/-- `return datum.Datum(), nil`, serde.go:48; `none`: a panic, which nothing recovers. Data are nested no deeper than there are
objects. -/
def datumG (a : Nat) (h : GHeap) : Except Err (Option HVal × GHeap) :=
  match datumAt (h.length + 1) a h with
  | none => .ok (none, h)
  | some (v, h') => .ok (some v, h')

/-- `Deserialize`, serde.go:42-49, of a codec for the parsed reader's schema `r` and the program `prog`, with fuel `n`. The result is
what is left of the input, and the value. -/
def callG {R : Type} (σ : Setting R) (dflt : Field → HVal) (r : Schema) (prog : Program) (n : Nat) (rd : R) : Todo GCell (R × Option HVal) :=
  .op (newG r.env r.root) fun a =>
    (evalA σ.ro (placeOps r.env σ.lim dflt) prog n 0 {} false rd a).bind fun ret =>
    .op (datumG a) fun v => .ret (.done (ret.r, v))

/-- The fields of a record of the schema. -/
def FieldsOf (env : Env) (fs : List Field) : Prop := ∃ q d, env.find q = some d ∧ d.kind = .record fs

/-- The variables of the fields of a schema hold their defaults, which are made of objects in `D`. -/
def DefaultsAt (env : Env) (D : Nat → Prop) (h : GHeap) (dflt : Field → HVal) : Prop :=
  ∀ fs, FieldsOf env fs → ∀ f ∈ fs, ∀ j, f.dflt = some j → ∃ fp, JsonMadeOf (seen h) j (dflt f) fp ∧ ∀ x ∈ fp, D x

/-- The object at `x` is one that a default of a field of the schema is made of. -/
def DefaultObject (env : Env) (h : GHeap) (dflt : Field → HVal) (x : Nat) : Prop :=
  ∃ fs f j fp, FieldsOf env fs ∧ f ∈ fs ∧ f.dflt = some j ∧ JsonMadeOf (seen h) j (dflt f) fp ∧ x ∈ fp
end Verif
