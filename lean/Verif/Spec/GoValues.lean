import Verif.Spec.GoShape
import Verif.Spec.MiniGo
import Verif.Gen.Text
/-
Which Go values of the generated types stand for which Avro values, and which types a type is made of.
-/
namespace Verif.Spec.Go
open Verif

section
variable (nm : Namer) (n : NS)

mutual
/-- The Go value `g` of the type generated for `t` holds the Avro value `v`. Lengths are below 2^63, as all
lengths in Go are. Members and fields that are not mentioned may hold anything. -/
def Shows (g : Value) : Val → PTy → Prop
  | .null, t => g = .nil ∧ ∃ d, t = .prim .null d
  | .bool b, t => g = .bool b ∧ ∃ d, t = .prim .bool d
  | .int x, t => g = .int32 x ∧ ∃ d, t = .prim .int d
  | .long x, t => g = .int x ∧ ∃ d, t = .prim .long d
  | .float x, t => g = .float32 x ∧ ∃ d, t = .prim .float d
  | .double x, t => g = .float64 x ∧ ∃ d, t = .prim .double d
  | .bytes x, t => g = .bytes x ∧ ∃ d, t = .prim .bytes d
  | .string x, t => g = .str x ∧ ∃ d, t = .prim .string d
  | .fixed x, t => g = .bytes x ∧ ∃ q d size, t = .ref q ∧ n.find q = some d ∧ d.kind = .fixed size
  | .enum x, t => g = .int32 x ∧ ∃ q d ss doc dflt, t = .ref q ∧ n.find q = some d ∧ d.kind = .enum ss doc dflt
  | .array vs, t => ∃ gs item d, g = .slice gs ∧ t = .array item d ∧ vs.length < 2 ^ 63 ∧ ShowAll gs vs item
  | .map es, t => ∃ gs item d, g = .dict gs ∧ t = .map item d ∧ es.length < 2 ^ 63 ∧ ShowEntries gs es item
  | .nil, t => g = .nil ∧ ∃ name ts d, t = .union name ts d ∧ ts.any nullTy = true
  | .union _ none, _ => False
  /- The member that `UnionType` names holds `v`. Where it names no member, or the null, there is none. -/
  | .union tag (some v), t => ∃ fs name ts d, t = .union name ts d ∧ ts.length < 2 ^ 63 ∧
      g = (if ts.any nullTy then .ptr (.struct fs) else .struct fs) ∧
      fs.lookup "UnionType".toList = some (.int tag) ∧
      ∀ u, ts[tag.toNat]? = some u → ts.findIdx? nullTy ≠ some tag.toNat → ∃ m,
        fs.lookup (u.goName nm n) = some m ∧ Shows m v u
  | .record vs, t => ∃ fs q d ps doc, g = .struct fs ∧ t = .ref q ∧ n.find q = some d ∧ d.kind = .record ps doc ∧
      ShowFields fs vs ps
def ShowAll (gs : List Value) : List Val → PTy → Prop
  | [], _ => gs = []
  | v :: vs, t => ∃ g gs', gs = g :: gs' ∧ Shows g v t ∧ ShowAll gs' vs t
/-- Maps are listed in the order of their keys. -/
def ShowEntries (gs : List (List Byte × Value)) : List (List Byte × Val) → PTy → Prop
  | [], _ => gs = []
  | (k, v) :: es, t => ∃ g gs', gs = (k, g) :: gs' ∧ Shows g v t ∧ ShowEntries gs' es t
def ShowFields (fs : List (Str × Value)) : List Val → List PField → Prop
  | [], ps => ps = []
  | v :: vs, ps => ∃ p ps' m, ps = p :: ps' ∧ fs.lookup (fieldGoName nm p.name) = some m ∧ Shows m v p.ty ∧ ShowFields fs vs ps'
end

/-- The types that values of a type are made of. -/
inductive Within : PTy → PTy → Prop
  | self (t) : Within t t
  | item {t u d} : Within t u → Within (.array t d) u
  | value {t u d} : Within t u → Within (.map t d) u
  | member {t name ts d u} : t ∈ ts → Within t u → Within (.union name ts d) u
  | field {q d fs doc f u} : n.find q = some d → d.kind = .record fs doc → f ∈ fs → Within f.ty u → Within (.ref q) u
end

end Verif.Spec.Go
