import Verif.Spec.Datum
import Verif.Spec.Wire
import Verif.Schema.Types
/-
Avro's binary encoding of data (Apache Avro specification, "Binary Encoding"): which
byte sequences encode a datum of a schema. Arrays and maps may be cut into blocks in any
way, so a datum has many encodings.
-/
namespace Verif

/-- Octets given as numbers. -/
def octets (l : List Nat) : List Byte := l.map (BitVec.ofNat 8)

/-- An integer. -/
def encLong (x : Int) : List Byte := octets (Spec.long x)

/-- A sequence of encoded items cut into blocks: each block is a count and that many
items, or a negated count, the size of the items in bytes, and the items; a count of zero
ends the sequence. -/
inductive Blocks : List (List Byte) → List Byte → Prop
  | done : Blocks [] (encLong 0)
  | counted (es rest : List (List Byte)) (bs : List Byte) : es ≠ [] → Blocks rest bs →
      Blocks (es ++ rest) (encLong es.length ++ es.flatten ++ bs)
  | sized (es rest : List (List Byte)) (bs : List Byte) : es ≠ [] → Blocks rest bs →
      Blocks (es ++ rest)
        (encLong (-es.length) ++ encLong es.flatten.length ++ es.flatten ++ bs)

section
variable (env : Env)

mutual
/-- `bs` encodes the datum as a value of type `t`. -/
def Enc : Datum → Ty → List Byte → Prop
  | .null, t, bs => t = .null ∧ bs = []
  | .bool b, t, bs => t = .bool ∧ bs = octets [if b then 1 else 0]
  | .int v, t, bs => t = .int ∧ bs = encLong v.toInt
  | .long v, t, bs => t = .long ∧ bs = encLong v.toInt
  | .float v, t, bs => t = .float ∧ bs = octets (Spec.littleEndian 4 v.toNat)
  | .double v, t, bs => t = .double ∧ bs = octets (Spec.littleEndian 8 v.toNat)
  | .bytes x, t, bs => t = .bytes ∧ bs = encLong x.length ++ x
  | .string x, t, bs => t = .string ∧ bs = encLong x.length ++ x
  | .fixed x, t, bs => ∃ q d, t = .ref q ∧ env.find q = some d ∧ d.kind = .fixed x.length ∧ bs = x
  | .enum i, t, bs => ∃ q d ss dflt, t = .ref q ∧ env.find q = some d ∧ d.kind = .enum ss dflt ∧
      0 ≤ i ∧ i < ss.length ∧ bs = encLong i
  | .array ds, t, bs => ∃ item es, t = .array item ∧ EncAll ds item es ∧ Blocks es bs
  | .map kds, t, bs => ∃ item es, t = .map item ∧ EncEntries kds item es ∧ Blocks es bs
  | .union i d, t, bs => ∃ ts u e, t = .union ts ∧ ts[i]? = some u ∧ Enc d u e ∧
      bs = encLong i ++ e
  | .record ds, t, bs => ∃ q d fs, t = .ref q ∧ env.find q = some d ∧ d.kind = .record fs ∧
      EncFields ds fs bs
/-- Each of the items. -/
def EncAll : List Datum → Ty → List (List Byte) → Prop
  | [], _, es => es = []
  | d :: ds, t, es => ∃ e es', es = e :: es' ∧ Enc d t e ∧ EncAll ds t es'
/-- Each of the entries: the key, then the value. -/
def EncEntries : List (List Byte × Datum) → Ty → List (List Byte) → Prop
  | [], _, es => es = []
  | (k, d) :: kds, t, es => ∃ e es', es = (encLong k.length ++ k ++ e) :: es' ∧ Enc d t e ∧
      EncEntries kds t es'
/-- The fields in the order of the schema. -/
def EncFields : List Datum → List Field → List Byte → Prop
  | [], fs, bs => fs = [] ∧ bs = []
  | d :: ds, fs, bs => ∃ f fs' e bs', fs = f :: fs' ∧ Enc d f.ty e ∧ EncFields ds fs' bs' ∧
      bs = e ++ bs'
end
end

mutual
/-- Sizes that this implementation accepts: byte strings up to 2^31-1 bytes
(v10/vm/readers.go:39,144), collections up to `lim` entries in all, indices that fit a long. -/
def Datum.within (lim : Nat) : Datum → Prop
  | .bytes x => x.length ≤ 2147483647
  | .string x => x.length ≤ 2147483647
  | .enum i => i < 2 ^ 63
  | .array ds => ds.length ≤ lim ∧ Datum.allWithin lim ds
  | .map kds => kds.length ≤ lim ∧ Datum.entriesWithin lim kds
  | .union i d => i < 2 ^ 63 ∧ d.within lim
  | .record ds => Datum.allWithin lim ds
  | _ => True
def Datum.allWithin (lim : Nat) : List Datum → Prop
  | [] => True
  | d :: ds => d.within lim ∧ Datum.allWithin lim ds
def Datum.entriesWithin (lim : Nat) : List (List Byte × Datum) → Prop
  | [] => True
  | (k, d) :: kds => k.length ≤ 2147483647 ∧ d.within lim ∧ Datum.entriesWithin lim kds
end

mutual
/-- A number of steps that suffices to read a datum. -/
def Datum.size : Datum → Nat
  | .array ds => 2 + Datum.sizes ds
  | .map kds => 2 + Datum.entrySizes kds
  | .union _ d => 1 + d.size
  | .record ds => 1 + Datum.sizes ds
  | _ => 1
def Datum.sizes : List Datum → Nat
  | [] => 0
  | d :: ds => d.size + Datum.sizes ds
def Datum.entrySizes : List (List Byte × Datum) → Nat
  | [] => 0
  | (_, d) :: kds => d.size + Datum.entrySizes kds
end

end Verif
