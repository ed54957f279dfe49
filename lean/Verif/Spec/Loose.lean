import Verif.Spec.Encoding
/-
The input that this implementation takes for the encoding of a datum. It is Avro's encoding
(`Enc`, Spec/Encoding) with these differences:

* integers may have any number of octets, and bits above the 64th are dropped; of an int the
  low 32 bits are taken;
* every octet but 1 is false;
* the size of a block may be any number;
* the index of an enum may be any number;
* byte strings are at most 2^31-1 octets long, and the first block of an array or a map has at most
  `lim` items (what Go can allocate);
* if `k`: a Boolean may be missing (at the end of the input of a reader with `ReadByte` it is false).
-/
namespace Verif

/-- Octets of a number in base 128, all but the last marked by the high bit. -/
def Marked : List Byte → Prop
  | [] => False
  | [b] => b.toNat < 128
  | b :: c :: bs => 128 ≤ b.toNat ∧ Marked (c :: bs)

/-- The inverse of zig-zag: 0, 1, 2, 3, 4, ... become 0, -1, 1, -2, 2, ... -/
def unzigzag (n : Nat) : Int := if n % 2 = 0 then (n / 2 : Nat) else -((n + 1) / 2 : Nat)

/-- `bs` is taken for the long `x`. -/
def SomeLong (x : Int) (bs : List Byte) : Prop :=
  Marked bs ∧ x = unzigzag (Spec.varintValue (bs.map (·.toNat)) % 2 ^ 64)

/-- `bs` is taken for a byte string. -/
def SomeBytes (x bs : List Byte) : Prop :=
  ∃ c, SomeLong x.length c ∧ x.length ≤ 2147483647 ∧ bs = c ++ x

/-- `Blocks` with any sizes; `first` if no block came before. -/
inductive SomeBlocks (lim : Nat) : Bool → List (List Byte) → List Byte → Prop
  | done {first c} : SomeLong 0 c → SomeBlocks lim first [] c
  | counted {first c es rest bs} : es ≠ [] → SomeLong es.length c → (first = true → es.length ≤ lim) →
      SomeBlocks lim false rest bs → SomeBlocks lim first (es ++ rest) (c ++ es.flatten ++ bs)
  | sized {first c n s es rest bs} : es ≠ [] → SomeLong (-es.length) c → SomeLong n s → (first = true → es.length ≤ lim) →
      SomeBlocks lim false rest bs → SomeBlocks lim first (es ++ rest) (c ++ s ++ es.flatten ++ bs)

section
variable (k : Bool) (env : Env) (lim : Nat)

mutual
/-- `bs` is taken for the datum as a value of type `t`. If `k`, Booleans may be missing. -/
def Loose : Datum → Ty → List Byte → Prop
  | .null, t, bs => t = .null ∧ bs = []
  | .bool b, t, bs => t = .bool ∧ ((∃ x : Byte, bs = [x] ∧ b = decide (x = 1)) ∨ (k = true ∧ bs = [] ∧ b = false))
  | .int v, t, bs => t = .int ∧ ∃ x, SomeLong x bs ∧ v = BitVec.ofInt 32 x
  | .long v, t, bs => t = .long ∧ SomeLong v.toInt bs
  | .float v, t, bs => t = .float ∧ bs = octets (Spec.littleEndian 4 v.toNat)
  | .double v, t, bs => t = .double ∧ bs = octets (Spec.littleEndian 8 v.toNat)
  | .bytes x, t, bs => t = .bytes ∧ SomeBytes x bs
  | .string x, t, bs => t = .string ∧ SomeBytes x bs
  | .fixed x, t, bs => ∃ q d, t = .ref q ∧ env.find q = some d ∧ d.kind = .fixed x.length ∧ bs = x
  | .enum i, t, bs => ∃ q d ss dflt, t = .ref q ∧ env.find q = some d ∧ d.kind = .enum ss dflt ∧ SomeLong i bs
  | .array ds, t, bs => ∃ item es, t = .array item ∧ LooseAll ds item es ∧ SomeBlocks lim true es bs
  | .map kds, t, bs => ∃ item es, t = .map item ∧ LooseEntries kds item es ∧ SomeBlocks lim true es bs
  | .union i d, t, bs => ∃ ts u c e, t = .union ts ∧ ts[i]? = some u ∧ SomeLong i c ∧ Loose d u e ∧ bs = c ++ e
  | .record ds, t, bs => ∃ q d fs, t = .ref q ∧ env.find q = some d ∧ d.kind = .record fs ∧ LooseFields ds fs bs
/-- Each of the items. -/
def LooseAll : List Datum → Ty → List (List Byte) → Prop
  | [], _, es => es = []
  | d :: ds, t, es => ∃ e es', es = e :: es' ∧ Loose d t e ∧ LooseAll ds t es'
/-- Each of the entries: the key, then the value. -/
def LooseEntries : List (List Byte × Datum) → Ty → List (List Byte) → Prop
  | [], _, es => es = []
  | (k, d) :: kds, t, es => ∃ c e es', es = (c ++ e) :: es' ∧ SomeBytes k c ∧ Loose d t e ∧ LooseEntries kds t es'
/-- The fields in the order of the schema. -/
def LooseFields : List Datum → List Field → List Byte → Prop
  | [], fs, bs => fs = [] ∧ bs = []
  | d :: ds, fs, bs => ∃ f fs' e bs', fs = f :: fs' ∧ Loose d f.ty e ∧ LooseFields ds fs' bs' ∧ bs = e ++ bs'
end
end
end Verif
