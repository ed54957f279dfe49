import Verif.Spec.CanRead
import Verif.Schema.Names
import Verif.Spec.Datum
import Verif.Gen.Val
import Verif.Gen.MapLemmas
/-
Positions in a datum and in the Go value it is read as. `Sees we re d w r p d' w' r'`: when
the datum `d` of type `w` is read as `r`, then its part `d'`, of type `w'`, is read as `r'`,
and the result is to be found at the position `p` of the Go value.
-/
namespace Verif

/-- A step into a Go value. -/
inductive Step where
  /-- an item of a slice -/
  | item (i : Nat)
  /-- the value of a key of a map -/
  | key (k : List Byte)
  /-- a field of a struct -/
  | field (j : Nat)
  /-- the member of a union, which must be the `j`th one -/
  | branch (j : Nat)

def Val.step : Val → Step → Option Val
  | .array vs, .item i => vs[i]?
  | .map m, .key k => mapGet m k
  | .record vs, .field j => vs[j]?
  | .union b (some v), .branch j => if b = BitVec.ofInt 64 j then some v else none
  | _, _ => none

/-- The part of a value at a position. -/
def Val.at (v : Val) : List Step → Option Val
  | [] => some v
  | s :: p => match v.step s with
    | some v' => v'.at p
    | none => none

/-- The field's name, or one of its aliases, is `n`. -/
def Field.answers (f : Field) (n : Str) : Prop := f.name = n ∨ n ∈ f.aliases

/-- Of the fields `wfs`, the `i`th, and only this one, has a name that the reader's field `rf`
has as its name or an alias; and of the fields `rfs`, the `j`th and only this one answers to
the name of the writer's field `wf`. -/
structure Matched (wfs rfs : List Field) (i j : Nat) (wf rf : Field) : Prop where
  writer : wfs[i]? = some wf
  reader : rfs[j]? = some rf
  answers : rf.answers wf.name
  onlyW : ∀ (i' : Nat) (wf' : Field), wfs[i']? = some wf' → rf.answers wf'.name → i' = i
  onlyR : ∀ (j' : Nat) (rf' : Field), rfs[j']? = some rf' → rf'.answers wf.name → j' = j

/-- `j` is the first position with the property. -/
structure First (P : Ty → Prop) (ts : List Ty) (j : Nat) (t : Ty) : Prop where
  get : ts[j]? = some t
  holds : P t
  first : ∀ (i : Nat) (u : Ty), i < j → ts[i]? = some u → ¬ P u

/-- Two types have the same generated Go type name. -/
def SameTypeName (we re : Env) (w r : Ty) : Prop := w.goName we = r.goName re

/-- The reader's member for a member `t` of the writer's union: the first one of the same
type name, and if there is none, the first one that can read `t`. -/
def Picks (we re : Env) (t : Ty) (rs : List Ty) (j : Nat) (r : Ty) : Prop :=
  First (SameTypeName we re t) rs j r ∨
  ((∀ r' ∈ rs, ¬ SameTypeName we re t r') ∧ First (CanRead we re t) rs j r)

inductive Sees (we re : Env) : Datum → Ty → Ty → List Step → Datum → Ty → Ty → Prop
  | here {d w r} : Sees we re d w r [] d w r
  | item {ds : List Datum} {i : Nat} {d w r p d' w' r'} : ds[i]? = some d → Sees we re d w r p d' w' r' →
      Sees we re (.array ds) (.array w) (.array r) (.item i :: p) d' w' r'
  /-- of several entries with a key, the last one -/
  | entry {es : List (List Byte × Datum)} {k d w r p d' w' r'} : lastEntry es k = some d →
      Sees we re d w r p d' w' r' → Sees we re (.map es) (.map w) (.map r) (.key k :: p) d' w' r'
  /-- into the reader's field of that name -/
  | field {ds : List Datum} {i j d wf rf q q' wd rd wfs rfs p d' w' r'} :
      we.find q = some wd → wd.kind = .record wfs → re.find q' = some rd → rd.kind = .record rfs →
      Matched wfs rfs i j wf rf → ds[i]? = some d → Sees we re d wf.ty rf.ty p d' w' r' →
      Sees we re (.record ds) (.ref q) (.ref q') (.field j :: p) d' w' r'
  /-- from a union into a union -/
  | member {i ts t rs j r d p d' w' r'} : ts[i]? = some t → t ≠ .null → Picks we re t rs j r →
      Sees we re d t r p d' w' r' → Sees we re (.union i d) (.union ts) (.union rs) (.branch j :: p) d' w' r'
  /-- from a union into another type -/
  | unwrap {i : Nat} {ts t r d p d' w' r'} : ts[i]? = some t → t ≠ .null → (∀ rs, r ≠ .union rs) →
      Sees we re d t r p d' w' r' → Sees we re (.union i d) (.union ts) r p d' w' r'
  /-- from another type into a union -/
  | wrap {d w rs j r p d' w' r'} : w ≠ .null → (∀ ts, w ≠ .union ts) → First (CanRead we re w) rs j r →
      (∀ rs', r ≠ .union rs') → Sees we re d w r p d' w' r' →
      Sees we re d w (.union rs) (.branch j :: p) d' w' r'

end Verif
