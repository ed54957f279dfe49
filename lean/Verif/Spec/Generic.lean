import Verif.Spec.Resolve
/-
The Go values that package v10/generic returns, and which of them belongs to a datum.
-/
namespace Verif

/-- A value in a Go `interface{}`.

* `nil`: the nil interface;
* `bool`, `int` (`int32`), `long` (`int64`), `float` (`float32`), `double` (`float64`),
  `bytes` (`[]byte`), `string`: values of these Go types;
* `symbol`: a Go string, the symbol of an enum;
* `list`: a `[]interface{}`;
* `map`: a `map[string]interface{}` for a map, listed in key order (see `mapOf`);
* `record`: a `map[string]interface{}` for a record: the fields in schema order;
* `json`: what `encoding/json` made of the default of a field (`field.Default()`). -/
inductive GVal where
  | nil
  | bool (b : Bool)
  | int (v : BitVec 32)
  | long (v : BitVec 64)
  | float (bits : BitVec 32)
  | double (bits : BitVec 64)
  | bytes (bs : List Byte)
  | string (bs : List Byte)
  | symbol (s : Str)
  | list (vs : List GVal)
  | map (es : List (List Byte × GVal))
  | record (es : List (Str × GVal))
  | json (j : Json)

/-- The entries, if all have a value. -/
def allKeyed {α β : Type} : List (α × Option β) → Option (List (α × β))
  | [] => some []
  | (_, none) :: _ => none
  | (k, some v) :: l => (allKeyed l).map ((k, v) :: ·)

/-- A null in a union. -/
def Datum.isNil : Datum → Bool
  | .union _ .null => true
  | _ => false

/-- A record as a map from field names. -/
def recordView (fs : List Field) (os : List (Option GVal)) : Option GVal :=
  (allSome os).map fun gs => .record ((fs.map (·.name)).zip gs)

/-! ### Values of one schema -/

section
variable (env : Env)

mutual
/-- The generic value that shows the value `v` of the Go type of `t`; none if it has an array
or a map that contains the null of a union (there `Deserialize` panics). -/
def goView : Val → Ty → Option GVal
  | .null, _ => some .nil
  | .nil, _ => some .nil
  | .bool b, _ => some (.bool b)
  | .int v, _ => some (.int v)
  | .long v, _ => some (.long v)
  | .float v, _ => some (.float v)
  | .double v, _ => some (.double v)
  | .bytes bs, _ => some (.bytes bs)
  | .string bs, _ => some (.string bs)
  | .fixed bs, _ => some (.bytes bs)
  | .enum v, .ref q => match env.find q with
    | some ⟨_, _, .enum ss _⟩ => (ss[v.toNat]?).map .symbol
    | _ => none
  | .array vs, .array t => (goViewItems vs t).map .list
  | .map es, .map t => (goViewEntries es t).map .map
  | .union tag (some v), .union ts => match ts[tag.toNat]? with
    | some t => goView v t
    | none => none
  | .record vs, .ref q => match env.find q with
    | some ⟨_, _, .record fs⟩ => (goViewFields vs fs).map .record
    | _ => none
  | _, _ => none
/-- The items of an array. -/
def goViewItems : List Val → Ty → Option (List GVal)
  | [], _ => some []
  | .nil :: _, _ => none
  | v :: vs, t => match goView v t, goViewItems vs t with
    | some g, some gs => some (g :: gs)
    | _, _ => none
/-- The entries of a map. -/
def goViewEntries : List (List Byte × Val) → Ty → Option (List (List Byte × GVal))
  | [], _ => some []
  | (_, .nil) :: _, _ => none
  | (k, v) :: es, t => match goView v t, goViewEntries es t with
    | some g, some gs => some ((k, g) :: gs)
    | _, _ => none
/-- The fields of a record. -/
def goViewFields : List Val → List Field → Option (List (Str × GVal))
  | [], [] => some []
  | v :: vs, f :: fs => match goView v f.ty, goViewFields vs fs with
    | some g, some gs => some ((f.name, g) :: gs)
    | _, _ => none
  | _, _ => none
end
end

/-! ### Data written under another schema -/

section
variable (we re : Env)

/-- The reader's type that a writer type that is no union is read with. -/
def readerOf (w r : Ty) : Ty :=
  match r with
  | .union rs => match findIdx (w.readableBy we re) 0 rs with
    | some (_, r') => r'
    | none => r
  | r => r

/-- The reader's symbol for a symbol of the writer. -/
def symbolView (i : Int) : Option DefKind → Option DefKind → Option GVal
  | some (.enum ws _), some (.enum rs dflt) =>
    match (if 0 ≤ i then ws[i.toNat]? else none) with
    | some s => some (.symbol (if s ∈ rs then s else dflt))
    | none => none
  | _, _ => none

/-- The kind of definition a type refers to. -/
def Ty.kindIn (env : Env) : Ty → Option DefKind
  | .ref q => (env.find q).map Def.kind
  | _ => none

/-- The items or entries of a type. -/
def Ty.itemOr : Ty → Ty
  | .array t => t
  | .map t => t
  | t => t

/-- The fields that nothing was stored in get their default, as `encoding/json` read it. -/
def fillRaw : List Field → List (Option (Option GVal)) → List (Option GVal)
  | f :: fs, o :: s => (match o with
      | some x => x
      | none => f.dflt.map .json) :: fillRaw fs s
  | _, _ => []

mutual
/-- What `Deserialize` returns for the datum `d`, written with type `w` and read as type `r`
(if it can be read, see `resolve`); none if it panics. A value of a primitive type has the Go
type of the *writer's* type. -/
def showDatum : Datum → Ty → Ty → Option GVal
  | .null, _, _ => some .nil
  | .bool b, _, _ => some (.bool b)
  | .int v, _, _ => some (.int v)
  | .long v, _, _ => some (.long v)
  | .float v, _, _ => some (.float v)
  | .double v, _, _ => some (.double v)
  | .bytes bs, _, _ => some (.bytes bs)
  | .string bs, _, _ => some (.string bs)
  | .fixed bs, _, _ => some (.bytes bs)
  | .enum i, w, r => symbolView i (w.kindIn we) ((readerOf we re w r).kindIn re)
  | .array ds, w, r => (allSome (showItems ds w.itemOr (readerOf we re w r).itemOr)).map .list
  | .map es, w, r => (allKeyed (mapOf (showEntries es w.itemOr (readerOf we re w r).itemOr))).map .map
  | .union i d, w, r =>
    if (Datum.union i d).isNil then some .nil
    else match w with
    | .union ts => match ts[i]? with
      | none => none
      | some t => match r with
        | .union rs => match pickBranch we re t rs with
          | none => none
          | some (_, r') => showDatum d t r'
        | r => showDatum d t r
    | _ => none
  | .record ds, w, r => match w.kindIn we, (readerOf we re w r).kindIn re with
    | some (.record wfs), some (.record rfs) =>
      recordView rfs (fillRaw rfs (showFields ds wfs rfs (List.replicate rfs.length none)))
    | _, _ => none
/-- The items of an array: null has no value here. -/
def showItems : List Datum → Ty → Ty → List (Option GVal)
  | [], _, _ => []
  | d :: ds, w, r => (if d.isNil then none else showDatum d w r) :: showItems ds w r
/-- The entries of a map: null has no value here. -/
def showEntries : List (List Byte × Datum) → Ty → Ty → List (List Byte × Option GVal)
  | [], _, _ => []
  | (k, d) :: es, w, r => (k, if d.isNil then none else showDatum d w r) :: showEntries es w r
/-- The fields of a record, stored in the reader's fields. -/
def showFields : List Datum → List Field → List Field → List (Option (Option GVal)) →
    List (Option (Option GVal))
  | d :: ds, w :: ws, rfs, slots => match fieldByName rfs w.name with
    | none => showFields ds ws rfs slots
    | some (i, rf) => showFields ds ws rfs (slots.set i (some (showDatum d w.ty rf.ty)))
  | _, _, _, slots => slots
end

/-! ### Data that are read without promotion and without defaults -/

mutual
/-- Reading the datum `d` of type `w` as type `r` promotes no primitive and uses no default;
where a union says null, there is null. -/
def Exact : Datum → Ty → Ty → Prop
  | .null, _, _ => True
  | .bool _, w, r => readerOf we re w r = w
  | .int _, w, r => readerOf we re w r = w
  | .long _, w, r => readerOf we re w r = w
  | .float _, w, r => readerOf we re w r = w
  | .double _, w, r => readerOf we re w r = w
  | .bytes _, w, r => readerOf we re w r = w
  | .string _, w, r => readerOf we re w r = w
  | .fixed _, _, _ => True
  | .enum _, _, _ => True
  | .array ds, w, r => ExactItems ds w.itemOr (readerOf we re w r).itemOr
  | .map es, w, r => ExactEntries es w.itemOr (readerOf we re w r).itemOr
  | .union i d, w, r => ∀ ts t, w = .union ts → ts[i]? = some t →
      if t.isNull then d = .null
      else match r with
        | .union rs => match pickBranch we re t rs with
          | none => True
          | some (_, r') => Exact d t r'
        | r => Exact d t r
  | .record ds, w, r => match w.kindIn we, (readerOf we re w r).kindIn re with
    | some (.record wfs), some (.record rfs) =>
      (∀ i rf, rfs[i]? = some rf → ∃ w ∈ wfs, fieldByName rfs w.name = some (i, rf)) ∧ ExactFields ds wfs rfs
    | _, _ => True
/-- The items of an array. -/
def ExactItems : List Datum → Ty → Ty → Prop
  | [], _, _ => True
  | d :: ds, w, r => Exact d w r ∧ ExactItems ds w r
/-- The entries of a map. -/
def ExactEntries : List (List Byte × Datum) → Ty → Ty → Prop
  | [], _, _ => True
  | (_, d) :: es, w, r => Exact d w r ∧ ExactEntries es w r
/-- The fields of a record. -/
def ExactFields : List Datum → List Field → List Field → Prop
  | d :: ds, w :: ws, rfs => (match fieldByName rfs w.name with
      | none => True
      | some (_, rf) => Exact d w.ty rf.ty) ∧ ExactFields ds ws rfs
  | _, _, _ => True
end
end

mutual
/-- No union has more members than an `int64` can number. -/
def Ty.short : Ty → Bool
  | .array t => t.short
  | .map t => t.short
  | .union ts => decide (ts.length < 2 ^ 63) && Ty.allShort ts
  | _ => true
def Ty.allShort : List Ty → Bool
  | [] => true
  | t :: ts => t.short && Ty.allShort ts
end

/-- Enums and unions have no more members than an `int32` and an `int64` can number. -/
structure Counted (s : Schema) : Prop where
  enums : ∀ q d ss dd, s.env.find q = some d → d.kind = .enum ss dd → ss.length ≤ 2 ^ 31
  fields : ∀ q d fs f, s.env.find q = some d → d.kind = .record fs → f ∈ fs → f.ty.short = true
  root : s.root.short = true

mutual
/-- Some array or map in the value contains the null of a union. -/
def Val.nullInside : Val → Bool
  | .array vs => Val.nullItems vs
  | .map es => Val.nullEntries es
  | .union _ (some v) => v.nullInside
  | .record vs => Val.nullFields vs
  | _ => false
def Val.nullItems : List Val → Bool
  | [] => false
  | .nil :: _ => true
  | v :: vs => v.nullInside || Val.nullItems vs
def Val.nullEntries : List (List Byte × Val) → Bool
  | [] => false
  | (_, .nil) :: _ => true
  | (_, v) :: es => v.nullInside || Val.nullEntries es
def Val.nullFields : List Val → Bool
  | [] => false
  | v :: vs => v.nullInside || Val.nullFields vs
end
end Verif
