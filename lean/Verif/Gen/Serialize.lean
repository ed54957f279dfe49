import Verif.Gen.Target
import Verif.Gen.MapLemmas
import Verif.Wire.Writer
/-
The generated serializers: the `SerializerMethod`s of v10/generator/flat/templates.
-/
namespace Verif

/-- What a serializer does on a writer that never fails: the chunks it hands over, and
whether it returns `nil` rather than an error. -/
abbrev SerOut := Trace × Bool

/-- One call after the other; `if err != nil { return err }` in between. -/
def SerOut.andThen (a b : SerOut) : SerOut := if a.2 then (a.1 ++ b.1, b.2) else a

/-- A loop that stops at the first error. -/
def serAll : List SerOut → SerOut
  | [] => ([], true)
  | a :: l => a.andThen (serAll l)

/-- The order in which Go iterates over maps. The first argument of `idx` tells the maps of a
value apart: the path from the value to the map. The second is the number of entries. The
result are the positions, in the sorted list that stands for the map, of the entries
visited first, second, ... -/
structure MapOrder where
  idx : List Nat → Nat → List Nat
  idxPerm : ∀ path n, (idx path n).Perm (List.range n)

/-- `l` in the order of `ord`. -/
def MapOrder.perm {α : Type} (ord : MapOrder) (path : List Nat) (l : List α) : List α :=
  (ord.idx path l.length).filterMap (l[·]?)

theorem filterMap_range {α : Type} (l : List α) : (List.range l.length).filterMap (l[·]?) = l := by
  induction l with
  | nil => rfl
  | cons a l ih =>
    rw [List.length_cons, List.range_succ_eq_map, List.filterMap_cons, List.filterMap_map]
    simpa [Function.comp_def] using ih

theorem MapOrder.isPerm {α : Type} (ord : MapOrder) (path : List Nat) (l : List α) :
    (ord.perm path l).Perm l := by
  have := (ord.idxPerm path l.length).filterMap (l[·]?)
  rwa [filterMap_range] at this

/-- Key order. -/
def MapOrder.id : MapOrder := ⟨fun _ n => List.range n, fun _ _ => .refl _⟩

/-- Reverse order everywhere. -/
def MapOrder.rev : MapOrder := ⟨fun _ n => (List.range n).reverse, fun _ _ => List.reverse_perm _⟩

/-- `NullIndex()`, v10/schema/union.go:17-24 (`none` for -1). -/
def nullIndexFrom (i : Nat) : List Ty → Option Nat
  | [] => none
  | t :: ts => if t.isNull then some i else nullIndexFrom (i + 1) ts

/-- `NullIndex()`, v10/schema/union.go:17-24. -/
def nullIndex (ts : List Ty) : Option Nat := nullIndexFrom 0 ts

section
variable (env : Env) (bw : Bool) (ord : MapOrder)

mutual
/-- The serializer of type `t` applied to a value. A value that is not of the Go type
belonging to `t` gives an error (Go's type checker excludes it), and so does a union struct
in which no member was ever assigned (Go would write the zero value of the member that
`UnionType` names).

* primitives: v10/vm/writers.go, see `SerializerMethod` in v10/schema/primitive.go;
* array: templates/array.go:11-23; map: templates/map.go:10-26;
* union: templates/union.go:31-51; record: templates/record.go:68-77;
* enum: templates/enum.go:37-39; fixed: templates/fixed.go:12-15. -/
def ser : Val → Ty → List Nat → SerOut
  | .null, t, _ => match t with
    | .null => (writeNull, true)
    | _ => ([], false)
  | .bool b, t, _ => match t with
    | .bool => (writeBool b, true)
    | _ => ([], false)
  | .int v, t, _ => match t with
    | .int => (writeInt bw v, true)
    | _ => ([], false)
  | .long v, t, _ => match t with
    | .long => (writeLong bw v, true)
    | _ => ([], false)
  | .float v, t, _ => match t with
    | .float => (writeFloat bw v, true)
    | _ => ([], false)
  | .double v, t, _ => match t with
    | .double => (writeDouble bw v, true)
    | _ => ([], false)
  | .bytes v, t, _ => match t with
    | .bytes => (writeBytes bw v, true)
    | _ => ([], false)
  | .string v, t, _ => match t with
    | .string => (writeString bw v, true)
    | _ => ([], false)
  | .fixed v, t, _ => match t with
    | .ref _ => ([v], true)
    | _ => ([], false)
  | .enum v, t, _ => match t with
    | .ref _ => (writeInt bw v, true)
    | _ => ([], false)
  | .array vs, t, p => match t with
    | .array item =>
      if vs.isEmpty then (writeLong bw (BitVec.ofNat 64 vs.length), true)
      else SerOut.andThen (writeLong bw (BitVec.ofNat 64 vs.length), true)
        ((serAll (serItems vs item 0 p)).andThen (writeLong bw 0, true))
    | _ => ([], false)
  | .map es, t, p => match t with
    | .map item =>
      if es.isEmpty then (writeLong bw (BitVec.ofNat 64 es.length), true)
      else SerOut.andThen (writeLong bw (BitVec.ofNat 64 es.length), true)
        ((serAll (ord.perm p (serEntries es item 0 p))).andThen (writeLong bw 0, true))
    | _ => ([], false)
  | .nil, t, _ => match t with
    | .union ts => match nullIndex ts with
      | some i => (writeLong bw (BitVec.ofNat 64 i), true)
      | none => ([], false)
    | _ => ([], false)
  | .union tag none, t, _ => match t with
    | .union _ => (writeLong bw tag, false)
    | _ => ([], false)
  | .union tag (some v), t, p => match t with
    | .union ts => SerOut.andThen (writeLong bw tag, true)
        (match (if 0 ≤ tag.toInt then ts[tag.toInt.toNat]? else none) with
        | none => ([], false)
        | some u => if nullIndex ts = some tag.toInt.toNat then ([], false) else ser v u (0 :: p))
    | _ => ([], false)
  | .record vs, t, p => match t with
    | .ref q => match env.find q with
      | some d => match d.kind with
        | .record fs => serFields vs fs 0 p
        | _ => ([], false)
      | none => ([], false)
    | _ => ([], false)
/-- The items of an array, each by itself. -/
def serItems : List Val → Ty → Nat → List Nat → List SerOut
  | [], _, _, _ => []
  | v :: vs, t, i, p => ser v t (i :: p) :: serItems vs t (i + 1) p
/-- The entries of a map, each by itself: the key, then the value. -/
def serEntries : List (List Byte × Val) → Ty → Nat → List Nat → List SerOut
  | [], _, _, _ => []
  | (k, v) :: es, t, i, p =>
    SerOut.andThen (writeString bw k, true) (ser v t (i :: p)) :: serEntries es t (i + 1) p
/-- The fields of a record. -/
def serFields : List Val → List Field → Nat → List Nat → SerOut
  | [], fs, _, _ => match fs with
    | [] => ([], true)
    | _ :: _ => ([], false)
  | v :: vs, fs, i, p => match fs with
    | [] => ([], false)
    | f :: fs => (ser v f.ty (i :: p)).andThen (serFields vs fs (i + 1) p)
end

/-- `Serialize`, templates/record.go:79-81 and templates/union.go:63-65. -/
def serialize (v : Val) (t : Ty) : SerOut := ser env bw ord v t []
end

section
variable (env : Env) (lim : Nat)

mutual
/-- `v` is a value of the Go type belonging to `t`, as a user builds it: an enum is one of
its constants, a union has one of its `UnionType` constants, and sizes are within the
limits (`lim`: of collections; 2^31-1: of strings). Maps are listed in key order. -/
def HasTy : Val → Ty → Prop
  | .null, t => t = .null
  | .bool _, t => t = .bool
  | .int _, t => t = .int
  | .long _, t => t = .long
  | .float _, t => t = .float
  | .double _, t => t = .double
  | .bytes x, t => t = .bytes ∧ x.length ≤ 2147483647
  | .string x, t => t = .string ∧ x.length ≤ 2147483647
  | .fixed x, t => ∃ q d, t = .ref q ∧ env.find q = some d ∧ d.kind = .fixed x.length
  | .enum v, t => ∃ q d ss dflt, t = .ref q ∧ env.find q = some d ∧ d.kind = .enum ss dflt ∧
      0 ≤ v.toInt ∧ v.toInt < ss.length
  | .array vs, t => ∃ item, t = .array item ∧ vs.length ≤ lim ∧ AllHaveTy vs item
  | .map es, t => ∃ item, t = .map item ∧ es.length ≤ lim ∧ Sorted es ∧ EntriesHaveTy es item
  | .nil, t => ∃ ts, t = .union ts ∧ t.nullable = true ∧ ts.length < 2 ^ 63
  | .union _ none, _ => False
  | .union tag (some v), t => ∃ ts u, t = .union ts ∧ ts[tag.toNat]? = some u ∧
      ts.length < 2 ^ 63 ∧ u.isNull = false ∧ HasTy v u
  | .record vs, t => ∃ q d fs, t = .ref q ∧ env.find q = some d ∧ d.kind = .record fs ∧
      FieldsHaveTy vs fs
def AllHaveTy : List Val → Ty → Prop
  | [], _ => True
  | v :: vs, t => HasTy v t ∧ AllHaveTy vs t
def EntriesHaveTy : List (List Byte × Val) → Ty → Prop
  | [], _ => True
  | (k, v) :: es, t => k.length ≤ 2147483647 ∧ HasTy v t ∧ EntriesHaveTy es t
def FieldsHaveTy : List Val → List Field → Prop
  | [], fs => fs = []
  | v :: vs, fs => ∃ f fs', fs = f :: fs' ∧ HasTy v f.ty ∧ FieldsHaveTy vs fs'
end
end

end Verif
