/-
Bytes, errors and the reader interface of the virtual machine.
Models: the parts of `io.Reader`, `io.ReadFull` and `vm.ByteReader`
(v10/vm/readers.go:11-13) that the decoder uses.
-/
namespace Verif

deriving instance DecidableEq for Except

/-- A Go `byte`. -/
abbrev Byte := BitVec 8

/-- Text of schemas (names, symbols): a Go `string` restricted to its characters. -/
abbrev Str := List Char

/-- Messages a compiled program can carry (v10/compiler/method.go:297,314,335,389,402).
The Go code stores formatted strings; the constructor is the format, the argument
its parameter. -/
inductive Msg where
  /-- "Unexpected value for enum", method.go:296 -/
  | unexpectedEnum
  /-- "Reader schema has no value for symbol %q in enum", method.go:312 -/
  | noSymbol (s : Str)
  /-- "Unsupported type for union", method.go:334 -/
  | unsupportedUnion
  /-- "Reader schema has no field for type %v in union", method.go:385,402 -/
  | noUnionField (name : Str)
  deriving DecidableEq, Repr

/-- Errors a decode can end with. -/
inductive Err where
  /-- `io.EOF` -/
  | eof
  /-- `io.ErrUnexpectedEOF` -/
  | unexpectedEOF
  /-- "bytes length out of range", v10/vm/readers.go:40 -/
  | bytesRange
  /-- "string length out of range", v10/vm/readers.go:145 -/
  | stringRange
  /-- a Go panic, which `vm.Eval` turns into an error (v10/vm/eval.go:24-28) -/
  | panic
  /-- "Runtime error: ...", v10/vm/eval.go:148 -/
  | runtime (m : Msg)
  /-- "Unknown instruction", v10/vm/eval.go:152 -/
  | unknownInstr
  /-- an error of the underlying reader or writer, or of a codec -/
  | io (code : Nat)
  deriving DecidableEq, Repr

/-- What the decoder needs from its `io.Reader`.

* `byteReader`: the dynamic type also implements `ReadByte` (v10/vm/readers.go:11).
* `readByte`: `ReadByte()`; the second component is the reader afterwards, also
  after an error, because `readBool` ignores the error (readers.go:18-19).
* `readFull r n`: `io.ReadFull(r, buf)` with `len(buf) = n`.
* `size`: an upper bound of the number of bytes still to come. It is not part of
  the Go interface; it bounds the loop in `readInt`/`readLong` (readers that
  deliver bytes for ever are not modelled). -/
structure ReaderOps (R : Type) where
  byteReader : Bool
  readByte : R → Except Err Byte × R
  readFull : R → Nat → Except Err (List Byte × R)
  size : R → Nat

/-- `io.ReadFull` on data that is all there: an empty source is `io.EOF`, a short one
`io.ErrUnexpectedEOF` (Go documentation of `io.ReadFull`). -/
def flatReadFull (r : List Byte) (n : Nat) : Except Err (List Byte × List Byte) :=
  if n ≤ r.length then .ok (r.take n, r.drop n)
  else if r = [] then .error .eof else .error .unexpectedEOF

/-- `bytes.Reader.ReadByte`. -/
def flatReadByte : List Byte → Except Err Byte × List Byte
  | [] => (.error .eof, [])
  | b :: r => (.ok b, r)

/-- A reader whose data is a byte list; `byteReader` says whether it offers `ReadByte`
(as `bytes.Buffer`, `bytes.Reader`, `bufio.Reader` do) or only `Read`. -/
def flatOps (byteReader : Bool) : ReaderOps (List Byte) where
  byteReader := byteReader
  readByte := flatReadByte
  readFull := flatReadFull
  size := List.length

/-- A reader implementation that delivers the bytes `view r` in order. -/
structure ReaderOps.Delivers {R : Type} (o : ReaderOps R) (view : R → List Byte) : Prop where
  readByte_nil : ∀ r, view r = [] → (o.readByte r).1 = .error .eof ∧ view (o.readByte r).2 = []
  readByte_cons : ∀ r b bs, view r = b :: bs →
    (o.readByte r).1 = .ok b ∧ view (o.readByte r).2 = bs
  readFull_ok : ∀ r n, n ≤ (view r).length →
    ∃ r', o.readFull r n = .ok ((view r).take n, r') ∧ view r' = (view r).drop n
  readFull_err : ∀ r n, (view r).length < n →
    o.readFull r n = .error (if view r = [] then .eof else .unexpectedEOF)
  size_ge : ∀ r, (view r).length ≤ o.size r

end Verif
