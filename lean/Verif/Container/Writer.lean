import Verif.Container.Block
import Verif.Gen.AnyWriter
/-
The container writer, v10/container/writer.go and snappy_writer.go.
-/
namespace Verif.Ocf
open Verif
set_option linter.unusedSimpArgs false
set_option linter.unusedVariables false

/-- `compressedWriter`: the block buffer itself, a `flate.Writer` or a `snappyWriter` with its
`inputBuffer`. -/
inductive Comp (L : Libs) where
  | plain
  | flate (s : L.Flate)
  | snappy (input : List Byte)

/-- The `compressedWriter` that `NewWriter` makes, writer.go:63-72. -/
def Comp.fresh (L : Libs) (codec : List Byte) : Comp L :=
  if codec = codecDeflate then .flate L.flateInit
  else if codec = codecSnappy then .snappy []
  else .plain

/-- Is it a `vm.ByteWriter`? `bytes.Buffer` is (it has `WriteByte` and `Grow`), the others are not. -/
def Comp.byteWriter {L : Libs} : Comp L → Bool
  | .plain => true
  | _ => false

/-- `Write` on the `compressedWriter`, together with the block buffer. None of them fails:
`bytes.Buffer.Write` does not (it panics if memory runs out), a `flate.Writer` passes on errors of
the buffer only, and snappy_writer.go:27-29 writes to a buffer. -/
def compOps (L : Libs) : WriterOps (Comp L × List Byte) where
  write c p := match c.1 with
    | .plain => ((.plain, c.2 ++ p), none)
    | .flate s => ((.flate (L.flateWrite s p).1, c.2 ++ (L.flateWrite s p).2), none)
    | .snappy i => ((.snappy (i ++ p), c.2), none)

/-- `binary.Write(w, binary.BigEndian, x)`. -/
def bigEndian32 (x : BitVec 32) : List Byte :=
  [(x >>> 24).setWidth 8, (x >>> 16).setWidth 8, (x >>> 8).setWidth 8, x.setWidth 8]

/-- What `Close` adds to the block buffer, writer.go:138-139; snappy_writer.go:31-38. A
`bytes.Buffer` has no `Close`. -/
def Comp.close {L : Libs} : Comp L → List Byte
  | .plain => []
  | .flate s => L.flateClose s
  | .snappy i => L.snappyEncode i ++ bigEndian32 (L.crc32 i)

/-- `Reset`, writer.go:140, snappy_writer.go:40-44. -/
def Comp.reset {L : Libs} : Comp L → Comp L
  | .plain => .plain
  | .flate _ => .flate L.flateInit
  | .snappy _ => .snappy []

/-- `Writer`, writer.go:33-43, the fields that change. -/
structure Writer (L : Libs) (W : Type) where
  w : W
  buf : List Byte
  cw : Comp L
  n : BitVec 64
  wrote : Bool

/-- What does not change: the `io.Writer`, whether it is a `vm.ByteWriter`, the codec, the records
per block, the schema, and the order in which Go iterates over the metadata. -/
structure WEnv (W : Type) where
  o : WriterOps W
  bw : Bool
  codec : List Byte
  per : BitVec 64
  schema : List Byte
  mo : MapOrder

/-- The sync marker, writer.go:56. -/
def syncMarker : List Byte := ascii "gogenavromagic10"

/-- The magic, writer.go:79. -/
def magic : List Byte := ascii "Obj" ++ [1]

def keyCodec : List Byte := ascii "avro.codec"
def keySchema : List Byte := ascii "avro.schema"

/-- The header as a Go value, writer.go:78-85 (maps are sorted by key). -/
def headerVal (codec schema : List Byte) : Val :=
  .record [.fixed magic, .map [(keyCodec, .bytes codec), (keySchema, .bytes schema)], .fixed syncMarker]

section
variable {L : Libs} {W : Type} (E : WEnv W)

/-- `NewWriter`, writer.go:50-75. (`flate.NewWriter` fails for bad levels only.) -/
def newWriter (L : Libs) (w : W) : Writer L W := ⟨w, [], .fresh L E.codec, 0, false⟩

/-- `writeHeader`, writer.go:77-87. -/
def writeHeader (s : Writer L W) : Writer L W × Option WErr :=
  match runSer E.o s.w (serialize headerSchema.env E.bw E.mo (headerVal E.codec E.schema) headerSchema.root) with
  | (w, e) => ({ s with w := w }, e)

/-- The lazy header, writer.go:96-102 and 124-130. -/
def ensureHeader (s : Writer L W) : Writer L W × Option WErr :=
  if s.wrote then (s, none) else
    match writeHeader E s with
    | (s', none) => ({ s' with wrote := true }, none)
    | (s', some e) => (s', some e)

/-- The compressor closed and reset, writer.go:138-141. -/
def Writer.closed (s : Writer L W) : Writer L W := { s with buf := s.buf ++ s.cw.close, cw := s.cw.reset }

/-- The block written and the buffer reset, writer.go:143-158. -/
def writeBlock (s : Writer L W) : Writer L W × Option WErr :=
  if (0 : Int) < s.n.toInt then
    match runSer E.o s.w (serialize blockSchema.env E.bw E.mo (RawBlock.mk s.n s.buf syncMarker).val blockSchema.root) with
    | (w, some e) => ({ s with w := w }, some e)
    | (w, none) => ({ s with w := w, buf := [], n := 0 }, none)
  else ({ s with buf := [], n := 0 }, none)

/-- `Flush` after the header, writer.go:132-158. -/
def flushBody (s : Writer L W) : Writer L W × Option WErr :=
  if s.n = 0 then (s, none) else writeBlock E s.closed

/-- `Flush`, writer.go:122-159. -/
def flush (s : Writer L W) : Writer L W × Option WErr :=
  match ensureHeader E s with
  | (s, some e) => (s, some e)
  | (s, none) => flushBody E s

/-- `WriteRecord`, writer.go:92-118. `rec b` is what the record's `Serialize` does on a writer that
is a `vm.ByteWriter` if `b`. -/
def writeRecord (s : Writer L W) (rec : Bool → SerOut) : Writer L W × Option WErr :=
  match ensureHeader E s with
  | (s, some e) => (s, some e)
  | (s, none) =>
    match runSer (compOps L) (s.cw, s.buf) (rec s.cw.byteWriter) with
    | ((cw, buf), some e) => ({ s with cw := cw, buf := buf }, some e)
    | ((cw, buf), none) =>
      if E.per.toInt ≤ (s.n + 1).toInt then flush E { s with cw := cw, buf := buf, n := s.n + 1 }
      else ({ s with cw := cw, buf := buf, n := s.n + 1 }, none)

/-- `BlockBufferSize`, writer.go:163-165. -/
def blockBufferSize (s : Writer L W) : Nat := s.buf.length

/-- A call. -/
inductive Op where
  | record (rec : Bool → SerOut)
  | flush

def step (s : Writer L W) : Op → Writer L W × Option WErr
  | .record rec => writeRecord E s rec
  | .flush => flush E s

/-- Calls one after the other, whatever they return; what they return is collected. -/
def run : Writer L W → List Op → Writer L W × List (Option WErr)
  | s, [] => (s, [])
  | s, op :: ops => ((run (step E s op).1 ops).1, (step E s op).2 :: (run (step E s op).1 ops).2)
end

/-- A record of the type `s`. -/
def recordOp (s : Schema) (mo : MapOrder) (v : Val) : Op := .record fun b => serialize s.env b mo v s.root

end Verif.Ocf
