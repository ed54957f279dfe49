import Verif.Container.Schemas
import Verif.VM.ReaderSim
/-
The container reader, v10/container/reader.go.
-/
namespace Verif.Ocf
open Verif
set_option linter.unusedSimpArgs false
set_option linter.unusedVariables false

/-- The libraries the container package uses: `compress/flate`, `github.com/golang/snappy`,
`hash/crc32`. They are not modelled; what is assumed of them is `Libs.Inverse`.

* `flateInit`, `flateWrite`, `flateClose`: a `flate.Writer` after `NewWriter` or `Reset`; what
  `Write` and `Close` hand on to the writer below;
* `flateRead`: what a `flate.NewReader` over the bytes delivers, `Read` call by `Read` call, and
  the error after that (`io.EOF` at the end of the stream);
* `snappyEncode`, `snappyDecode`, `crc32` (`crc32.ChecksumIEEE`). -/
structure Libs where
  Flate : Type
  flateInit : Flate
  flateWrite : Flate → List Byte → Flate × List Byte
  flateClose : Flate → List Byte
  flateRead : List Byte → List (List Byte) × Err
  snappyEncode : List Byte → List Byte
  snappyDecode : List Byte → Except Err (List Byte)
  crc32 : List Byte → BitVec 32

/-- `Null`, `Deflate`, `Snappy`, v10/container/writer.go:15-24. -/
def codecNull : List Byte := ascii "null"
def codecDeflate : List Byte := ascii "deflate"
def codecSnappy : List Byte := ascii "snappy"

/-- "Unexpected sync marker", reader.go:97. -/
def errSync : Err := .io 1
/-- "Unexpected codec", reader.go:119. -/
def errCodec : Err := .io 2

/-- The fields `NumRecords`, `RecordBytes`, `Sync` of an `AvroContainerBlock`. -/
structure RawBlock where
  count : BitVec 64
  data : List Byte
  sync : List Byte

/-- `avro.DeserializeAvroContainerBlock`, v10/container/avro/avro_container_block.go:35-44. It
compiles the block's schema and evaluates the program; `deserializeBlock_evaluates` shows that
this is what that does. -/
def deserializeBlock {R : Type} (o : ReaderOps R) (r : R) : Except Err (RawBlock × R) :=
  bindOk (readLong o r) fun n r1 =>
    bindOk (readBytes o r1) fun d r2 =>
      bindOk (readFixed o 16 r2) fun s r3 => .ok (⟨n, d, s⟩, r3)

/-- `compressedReader`: what its next calls of `Read` deliver at most, and the error that comes
then. -/
structure Blk where
  pieces : List (List Byte)
  fin : Err

/-- A `bytes.Buffer` delivers what it has, then `io.EOF`. -/
def Blk.buffer (data : List Byte) : Blk := ⟨if data = [] then [] else [data], .eof⟩

/-- The reader made for a block, reader.go:100-121. Slicing off the last four bytes panics if
there are fewer; the panic is recovered by the `vm.Eval` that is reading. -/
def openCodec (L : Libs) (codec data : List Byte) : Except Err Blk :=
  if codec = codecNull then .ok (.buffer data)
  else if codec = codecDeflate then .ok ⟨(L.flateRead data).1, (L.flateRead data).2⟩
  else if codec = codecSnappy then
    if data.length < 4 then .error .panic
    else match L.snappyDecode (data.take (data.length - 4)) with
      | .error e => .error e
      | .ok out => .ok (.buffer out)
  else .error errCodec

/-- The check of the sync marker, reader.go:95-98, and the reader made for the block. -/
def openRaw (L : Libs) (codec sync : List Byte) (b : RawBlock) : Except Err Blk :=
  if b.sync ≠ sync then .error errSync else openCodec L codec b.data

/-- `openBlock`, reader.go:89-123: the new `compressedReader` and the reader below. -/
def openBlock {R : Type} (L : Libs) (o : ReaderOps R) (codec sync : List Byte) (r : R) : Except Err (Blk × R) :=
  bindOk (deserializeBlock o r) fun b r' => (openRaw L codec sync b).map fun blk => (blk, r')

/-- `Read(b)` of the `compressedReader`. -/
def Blk.read (b : Blk) (n : Nat) : (List Byte × Option Err) × Blk :=
  match b.pieces with
  | [] => (([], some b.fin), b)
  | c :: cs => if c.length ≤ n then ((c, none), ⟨cs, b.fin⟩) else ((c.take n, none), ⟨c.drop n :: cs, b.fin⟩)

/-- `Reader`, reader.go:17-24 (`schema` is never used). -/
structure Reader (R : Type) where
  codec : List Byte
  reader : R
  cur : Option Blk
  schema : List Byte
  sync : List Byte

/-- What is still to come from block number one on, `Read` call by `Read` call, and the error
after that. Not part of the code. -/
def upcoming {R : Type} (L : Libs) (o : ReaderOps R) (codec sync : List Byte) : Nat → R → List (List Byte) × Err
  | 0, _ => ([], .eof)
  | k + 1, r => match openBlock L o codec sync r with
    | .error e => ([], e)
    | .ok (b, r') =>
      if b.fin = .eof then
        (b.pieces ++ (upcoming L o codec sync k r').1, (upcoming L o codec sync k r').2)
      else (b.pieces, b.fin)

/-- What the reader still delivers. Not part of the code. -/
def Reader.rest {R : Type} (L : Libs) (o : ReaderOps R) (c : Reader R) : List (List Byte) × Err :=
  match c.cur with
  | none => upcoming L o c.codec c.sync (o.size c.reader + 1) c.reader
  | some b =>
    if b.fin = .eof then
      (b.pieces ++ (upcoming L o c.codec c.sync (o.size c.reader + 1) c.reader).1,
        (upcoming L o c.codec c.sync (o.size c.reader + 1) c.reader).2)
    else (b.pieces, b.fin)

/-- The loop in `Read`, reader.go:71-86. The number bounds the blocks opened. -/
def Reader.readLoop {R : Type} (L : Libs) (o : ReaderOps R) (n : Nat) : Nat → Reader R → Blk →
    Except Err (List Byte × Reader R)
  | 0, _, _ => .error .eof
  | k + 1, c, b =>
    if (b.read n).1.1 ≠ [] then .ok ((b.read n).1.1, { c with cur := some (b.read n).2 })
    else match (b.read n).1.2 with
      | none => .ok ([], { c with cur := some (b.read n).2 })
      | some .eof => match openBlock L o c.codec c.sync c.reader with
        | .error e => .error e
        | .ok (b', r') => Reader.readLoop L o n k { c with reader := r', cur := some b' } b'
      | some e => .error e

/-- `Read(b)` with `len(b) = n`, reader.go:63-87. -/
def Reader.read {R : Type} (L : Libs) (o : ReaderOps R) (c : Reader R) (n : Nat) : Except Err (List Byte × Reader R) :=
  match c.cur with
  | some b => Reader.readLoop L o n (o.size c.reader + 2) c b
  | none => match openBlock L o c.codec c.sync c.reader with
    | .error e => .error e
    | .ok (b, r') => Reader.readLoop L o n (o.size c.reader + 2) { c with reader := r', cur := some b } b

/-- The loop of `io.ReadAtLeast(r, buf, len(buf))` (Go standard library, io/io.go), as
`chunkFullLoop`. -/
def Reader.fullLoop {R : Type} (L : Libs) (o : ReaderOps R) : Nat → List Byte → Nat → Reader R →
    Except Err (List Byte × Reader R)
  | 0, _, _, _ => .error .eof
  | fuel + 1, got, need, c =>
    if need = 0 then .ok (got, c) else
      match c.read L o need with
      | .ok (bs, c') => Reader.fullLoop L o fuel (got ++ bs) (need - bs.length) c'
      | .error e => .error (if e = .eof ∧ got ≠ [] then .unexpectedEOF else e)

/-- The container reader as an `io.Reader`; it has no `ReadByte`. -/
def readerOps {R : Type} (L : Libs) (o : ReaderOps R) : ReaderOps (Reader R) where
  byteReader := false
  readByte c := (.error .eof, c)
  readFull c n := Reader.fullLoop L o ((c.rest L o).1.length + 2) [] n c
  size c := (c.rest L o).1.flatten.length

end Verif.Ocf
