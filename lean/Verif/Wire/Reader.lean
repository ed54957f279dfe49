import Verif.Wire.Basic
/-
The primitive readers, v10/vm/readers.go.
-/
namespace Verif
variable {R : Type}

/-- Apply a function to the value read. -/
def mapOk {α β : Type} (g : α → β) : Except Err (α × R) → Except Err (β × R)
  | .error e => .error e
  | .ok (a, r) => .ok (g a, r)

/-- Continue with the value read; an error ends the sequence (`if err != nil { return }`). -/
def bindOk {α β : Type} (x : Except Err (α × R)) (f : α → R → Except Err (β × R)) :
    Except Err (β × R) :=
  match x with
  | .error e => .error e
  | .ok (a, r) => f a r

/-- One byte, by `ReadByte` if the reader has it, else by `io.ReadFull` of one byte:
the two branches at v10/vm/readers.go:78-80,89-94 and 109-111,120-125. -/
def ReaderOps.next (o : ReaderOps R) (r : R) : Except Err (Byte × R) :=
  if o.byteReader then
    match o.readByte r with
    | (.ok b, r') => .ok (b, r')
    | (.error e, _) => .error e
  else
    match o.readFull r 1 with
    | .ok (b :: _, r') => .ok (b, r')
    | .ok ([], _) => .error .panic
    | .error e => .error e

/-- `readBool`, v10/vm/readers.go:15-29. On the `ReadByte` path the error is dropped
and the byte is zero. -/
def readBool (o : ReaderOps R) (r : R) : Except Err (Bool × R) :=
  if o.byteReader then
    match o.readByte r with
    | (.ok b, r') => .ok (b == 1, r')
    | (.error _, r') => .ok (false, r')
  else
    match o.readFull r 1 with
    | .ok (b :: _, r') => .ok (b == 1, r')
    | .ok ([], _) => .error .panic
    | .error e => .error e

/-- The loop shared by `readInt` and `readLong`, v10/vm/readers.go:79-87,90-99 and
110-118,121-130. Shifts of 64 or more give 0, as in Go. The first argument bounds
the number of rounds (see `ReaderOps.size`). In `readInt` the accumulator is a signed
64-bit `int`, in `readLong` it is `uint64`; `|=` and `<<` act alike on the bits. -/
def readVarLoop (o : ReaderOps R) : Nat → BitVec 64 → Nat → R → Except Err (BitVec 64 × R)
  | 0, _, _, _ => .error .eof
  | n + 1, v, shift, r =>
    match o.next r with
    | .error e => .error e
    | .ok (b, r') =>
      let v' := v ||| (((b &&& 127).setWidth 64) <<< shift)
      if b &&& 128 = 0 then .ok (v', r') else readVarLoop o n v' (shift + 7) r'

/-- The accumulated varint, started at zero with shift zero. -/
def readVar (o : ReaderOps R) (r : R) : Except Err (BitVec 64 × R) :=
  readVarLoop o (o.size r + 1) 0 0 r

/-- `int32(v>>1) ^ -int32(v&1)` on a signed `v`, v10/vm/readers.go:101. -/
def unzigzag32 (v : BitVec 64) : BitVec 32 :=
  ((v.sshiftRight 1).setWidth 32) ^^^ (-((v &&& 1).setWidth 32))

/-- `int64(v>>1) ^ -int64(v&1)` on an unsigned `v`, v10/vm/readers.go:132. -/
def unzigzag64 (v : BitVec 64) : BitVec 64 := (v >>> 1) ^^^ (-(v &&& 1))

/-- `readInt`, v10/vm/readers.go:74-103. -/
def readInt (o : ReaderOps R) (r : R) : Except Err (BitVec 32 × R) :=
  mapOk (fun v => unzigzag32 v) (readVar o r)

/-- `readLong`, v10/vm/readers.go:105-134. -/
def readLong (o : ReaderOps R) (r : R) : Except Err (BitVec 64 × R) :=
  mapOk (fun v => unzigzag64 v) (readVar o r)

/-- `binary.LittleEndian.UintNN`. -/
def leNat : List Byte → Nat
  | [] => 0
  | b :: bs => b.toNat + 256 * leNat bs

/-- `readDouble`, v10/vm/readers.go:52-61 (the value is the IEEE bit pattern). -/
def readDouble (o : ReaderOps R) (r : R) : Except Err (BitVec 64 × R) :=
  mapOk (fun bs => BitVec.ofNat 64 (leNat bs)) (o.readFull r 8)

/-- `readFloat`, v10/vm/readers.go:63-72 (the value is the IEEE bit pattern). -/
def readFloat (o : ReaderOps R) (r : R) : Except Err (BitVec 32 × R) :=
  mapOk (fun bs => BitVec.ofNat 32 (leNat bs)) (o.readFull r 4)

/-- Length check and payload shared by `readBytes` and `readString`,
v10/vm/readers.go:31-50 and 136-158; `e` is the range error. -/
def readSized (e : Err) (o : ReaderOps R) (r : R) : Except Err (List Byte × R) :=
  bindOk (readLong o r) fun n r' =>
    if n.toInt < 0 ∨ 2147483647 < n.toInt then .error e
    else if n = 0 then .ok ([], r')
    else o.readFull r' n.toNat

/-- `readBytes`, v10/vm/readers.go:31-50. -/
def readBytes (o : ReaderOps R) (r : R) : Except Err (List Byte × R) := readSized .bytesRange o r

/-- `readString`, v10/vm/readers.go:136-158. -/
def readString (o : ReaderOps R) (r : R) : Except Err (List Byte × R) := readSized .stringRange o r

/-- `readFixed`, v10/vm/readers.go:160-164; `make` panics on a negative size. -/
def readFixed (o : ReaderOps R) (size : Int) (r : R) : Except Err (List Byte × R) :=
  if size < 0 then .error .panic else o.readFull r size.toNat

end Verif
