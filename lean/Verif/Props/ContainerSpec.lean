import Verif.Container.History
/-
The notions used to state the properties of container files.

* `Spec/Ocf`: the layout of a file (`Spec.Ocf.File`, `Header`, `block`).
* `Packs L codec raw data`: `data` is `raw` compressed with the codec.
* `Call`, `after`: calls of the writer; the writer afterwards and what the calls returned.
* `Written`: how the records are distributed over the blocks and the pending block.
* `ReadsTo`: bytes that are read as a value.
* `NewReader σ rd c`: `container.NewReader` (`none`: an error). `σ.inside L`: reading through a
  container reader. `ReadError σ w r c e`: reading a record returns the error `e`.
-/
namespace Verif.Props
open Verif Verif.Ocf

/-- Lists of the same length, related position by position. -/
inductive Pairs {α β : Type} (P : α → β → Prop) : List α → List β → Prop
  | nil : Pairs P [] []
  | cons {a b as bs} : P a b → Pairs P as bs → Pairs P (a :: as) (b :: bs)

/-- `data` is `raw` compressed (Apache Avro specification, "Required Codecs", "Optional Codecs").
What decompresses to what is up to the libraries. -/
inductive Packs (L : Libs) : List Byte → List Byte → List Byte → Prop
  | null {raw} : Packs L codecNull raw raw
  | deflate {raw data cs} : L.flateRead data = (cs, .eof) → cs.flatten = raw → Packs L codecDeflate raw data
  | snappy {raw z} : L.snappyDecode z = .ok raw → Packs L codecSnappy raw (z ++ bigEndian32 (L.crc32 raw))

/-- A call: `WriteRecord` with a record, and the order in which Go iterates over the maps in it;
or `Flush`. -/
inductive Call where
  | record (x : MapOrder × Val)
  | flush

def Call.op (s : Schema) : Call → Ocf.Op
  | .record x => recordOp s x.1 x.2
  | .flush => .flush

/-- The records of the calls. -/
def records (calls : List Call) : List (MapOrder × Val) := calls.filterMap fun
  | .record x => some x
  | .flush => none

/-- The writer that `NewWriter` made on `w`, after the calls, and what they returned. -/
def after {W : Type} (E : WEnv W) (L : Libs) (s : Schema) (w : W) (calls : List Call) : Writer L W × List (Option WErr) :=
  run E (newWriter E L w) (calls.map (Call.op s))

/-- The encoding of a record. -/
def enc (s : Schema) (x : MapOrder × Val) : List Byte := wire s false x.1 x.2

/-- `Serialize` returns nil. -/
def serializes (s : Schema) (x : MapOrder × Val) : Bool := (serialize s.env false x.1 x.2 s.root).2

/-- What a call returns if the destination takes everything: an error if the record cannot be
serialized. -/
def answer (s : Schema) : Call → Option WErr
  | .record x => if serializes s x then none else some .invalid
  | .flush => none

/-- The records in the order of the calls: those of the first block, of the second, ..., those not
yet in a block. `bs` are the blocks. A record that cannot be serialized does not count, but what
`Serialize` wrote before it failed is in the data. -/
structure Written {W : Type} (E : WEnv W) (L : Libs) (s : Schema) (calls : List Call) (out : List Byte)
    (groups : List (List (MapOrder × Val))) (pend : List (MapOrder × Val)) (bs : List (Nat × List Byte)) : Prop where
  /-- nothing is lost, nothing is added, the order is that of the calls -/
  order : groups.flatten ++ pend = records calls
  /-- each block has between 1 and `recordsPerBlock` records, its count is their number and its
  data are their encodings, compressed -/
  blocks : Pairs (fun g b => b.1 = g.countP (serializes s) ∧ 1 ≤ b.1 ∧ (b.1 : Int) ≤ max E.per.toInt 1 ∧
    Packs L E.codec (g.map (enc s)).flatten b.2) groups bs
  /-- fewer than `recordsPerBlock` records are pending -/
  pending : (pend.countP (serializes s) : Int) < max E.per.toInt 1
  /-- after `Flush` no record is pending -/
  flushed : calls.getLast? = some .flush → pend.countP (serializes s) = 0
  /-- after the first call the output is a container file with these blocks -/
  file : calls ≠ [] → ∃ es, es.Perm [(keyCodec, E.codec), (keySchema, E.schema)] ∧
    Spec.Ocf.File es syncMarker bs out
  nothing : calls = [] → out = [] ∧ bs = []

section
variable {R : Type}

/-- The bytes are read as the value, whatever comes after them. -/
def ReadsTo (σ : Setting R) (w r : Schema) (e : List Byte) (v : Val) : Prop :=
  ∀ rest, Deserializes σ.flat w r (e ++ rest) (.value v rest)

/-- Records have at least one byte. -/
def HasBytes (σ : Setting R) (w r : Schema) : Prop := ∃ e v, ReadsTo σ w r e v ∧ e ≠ []

/-- The metadata name the schema and the codec (`null` if there is none). -/
structure Names (es : List (List Byte × List Byte)) (schema codec : List Byte) : Prop where
  nodup : (es.map (·.1)).Nodup
  schema : (keySchema, schema) ∈ es
  codec : (keyCodec, codec) ∈ es ∨ (codec = codecNull ∧ ∀ e ∈ es, e.1 ≠ keyCodec)
  small : ∀ e ∈ es, e.1.length ≤ 2147483647 ∧ e.2.length ≤ 2147483647

/-- Blocks that can be opened: counts and sizes are in the range of the implementation. -/
def Fits (bs : List (Nat × List Byte)) : Prop := ∀ b ∈ bs, b.1 < 2 ^ 63 ∧ b.2.length ≤ 2147483647
end
end Verif.Props
