import Verif.VM.Instr
/-
The virtual machine: v10/vm/eval.go.
-/
namespace Verif
variable {R T : Type}

/-- `types.Field`, v10/vm/types/field.go:6-36, as operations on a functional target.
An `.error` is a Go panic. `Get`, `AppendArray` and `AppendMap` return a pointer into the
parent; here the sub-target is a value and `put`, `putArray`, `putMap` store its
final state in the parent. -/
structure FieldOps (T : Type) where
  setBoolean : T → Bool → Except Err T
  setInt : T → BitVec 32 → Except Err T
  setLong : T → BitVec 64 → Except Err T
  setFloat : T → BitVec 32 → Except Err T
  setDouble : T → BitVec 64 → Except Err T
  setBytes : T → List Byte → Except Err T
  setString : T → List Byte → Except Err T
  get : T → Int → Except Err T
  put : T → Int → T → T
  setDefault : T → Int → Except Err T
  appendMap : T → List Byte → Except Err T
  putMap : T → List Byte → T → T
  appendArray : T → Except Err T
  putArray : T → T → T
  nullField : T → Int → Except Err T
  hintSize : T → BitVec 64 → Except Err T
  finalize : T → Except Err T

/-- `stackFrame`, v10/vm/eval.go:11-20. -/
structure Frame where
  boolean : Bool := false
  int : BitVec 32 := 0
  long : BitVec 64 := 0
  float : BitVec 32 := 0
  double : BitVec 64 := 0
  bytes : List Byte := []
  string : List Byte := []
  cond : Bool := false

/-- `case Read`, v10/vm/eval.go:43-64. -/
def doRead (ro : ReaderOps R) (arg : Int) (fr : Frame) (r : R) : Except Err (Frame × R) :=
  if arg = opNull then .ok (fr, r)
  else if arg = opBoolean then mapOk (fun v => { fr with boolean := v }) (readBool ro r)
  else if arg = opInt then mapOk (fun v => { fr with int := v }) (readInt ro r)
  else if arg = opLong then mapOk (fun v => { fr with long := v }) (readLong ro r)
  else if arg = opUnusedLong then mapOk (fun _ => fr) (readLong ro r)
  else if arg = opFloat then mapOk (fun v => { fr with float := v }) (readFloat ro r)
  else if arg = opDouble then mapOk (fun v => { fr with double := v }) (readDouble ro r)
  else if arg = opBytes then mapOk (fun v => { fr with bytes := v }) (readBytes ro r)
  else if arg = opString then mapOk (fun v => { fr with string := v }) (readString ro r)
  else mapOk (fun v => { fr with bytes := v }) (readFixed ro (arg - 11) r)

/-- `case Set`, v10/vm/eval.go:65-82. -/
def doSet (fo : FieldOps T) (arg : Int) (fr : Frame) (t : T) : Except Err T :=
  if arg = opNull then .ok t
  else if arg = opBoolean then fo.setBoolean t fr.boolean
  else if arg = opInt then fo.setInt t fr.int
  else if arg = opLong then fo.setLong t fr.long
  else if arg = opFloat then fo.setFloat t fr.float
  else if arg = opDouble then fo.setDouble t fr.double
  else if arg = opBytes then fo.setBytes t fr.bytes
  else if arg = opString then fo.setString t fr.string
  else .ok t

/-- Result of an evaluation: finished, failed, or not finished within the fuel. -/
inductive Out (α : Type) where
  | done (a : α)
  | err (e : Err)
  | timeout
  deriving DecidableEq

/-- What `evalInner` leaves behind: the result `setToNil`, the program counter, the
reader and the target. -/
structure Ret (R T : Type) where
  nil : Bool
  pc : Nat
  r : R
  t : T

/-- `if setToNil { target.NullField(i) }`, v10/vm/eval.go:88-90,100-102,107-109. -/
def nullIf (fo : FieldOps T) (nil : Bool) (t : T) (i : Int) : Except Err T :=
  if nil then fo.nullField t i else .ok t

/-- `evalInner`, v10/vm/eval.go:35-160. The first argument is fuel. `pc`, `fr` (the
frame), `fl` (`exitAndNull`), `r`, `t` are the state of the current activation.
`*pc++` of the loop header is folded into each case. A negative jump target would
make the next instruction fetch panic. Operands are Go `int`s, taken to be 64 bits
wide, so that `int64(inst.Operand)` is the operand itself. `frame` is local to an
activation, so saving and restoring `frame.Long` around `PushLoop` (138,141) leaves it
unchanged. The `default:` case (151-152) cannot occur, `Op` being closed. When the
evaluation fails the reader and the half-filled target are not part of the outcome. -/
def evalInner (ro : ReaderOps R) (fo : FieldOps T) (p : Program) :
    Nat → Nat → Frame → Bool → R → T → Out (Ret R T)
  | 0, _, _, _, _, _ => .timeout
  | n + 1, pc, fr, fl, r, t =>
    match p.instrs[pc]? with
    | none => .done ⟨false, pc, r, t⟩
    | some ⟨op, arg⟩ =>
      match op with
      | .read => match doRead ro arg fr r with
        | .error e => .err e
        | .ok (fr', r') => evalInner ro fo p n (pc + 1) fr' fl r' t
      | .set => match doSet fo arg fr t with
        | .error e => .err e
        | .ok t' => evalInner ro fo p n (pc + 1) fr fl r t'
      | .setDefault => match fo.setDefault t arg with
        | .error e => .err e
        | .ok t' => evalInner ro fo p n (pc + 1) fr fl r t'
      | .enter => match fo.get t arg with
        | .error e => .err e
        | .ok sub => match evalInner ro fo p n (pc + 1) {} false r sub with
          | .timeout => .timeout
          | .err e => .err e
          | .done ret => match nullIf fo ret.nil (fo.put t arg ret.t) arg with
            | .error e => .err e
            | .ok t' => evalInner ro fo p n (ret.pc + 1) fr fl ret.r t'
      | .exit => match fo.finalize t with
        | .error e => .err e
        | .ok t' => .done ⟨fl, pc, r, t'⟩
      | .setExitNull => evalInner ro fo p n (pc + 1) fr true r t
      | .appendArray => match fo.appendArray t with
        | .error e => .err e
        | .ok sub => match evalInner ro fo p n (pc + 1) {} false r sub with
          | .timeout => .timeout
          | .err e => .err e
          | .done ret => match nullIf fo ret.nil (fo.putArray t ret.t) (-1) with
            | .error e => .err e
            | .ok t' => evalInner ro fo p n (ret.pc + 1) fr fl ret.r t'
      | .appendMap => match fo.appendMap t fr.string with
        | .error e => .err e
        | .ok sub => match evalInner ro fo p n (pc + 1) {} false r sub with
          | .timeout => .timeout
          | .err e => .err e
          | .done ret => match nullIf fo ret.nil (fo.putMap t fr.string ret.t) (-1) with
            | .error e => .err e
            | .ok t' => evalInner ro fo p n (ret.pc + 1) fr fl ret.r t'
      | .call => if arg < 0 then .err .panic else
        match evalInner ro fo p n arg.toNat {} false r t with
        | .timeout => .timeout
        | .err e => .err e
        | .done ret => evalInner ro fo p n (pc + 1) fr fl ret.r ret.t
      | .ret => .done ⟨false, pc, r, t⟩
      | .jump => if arg < 0 then .err .panic else evalInner ro fo p n arg.toNat fr fl r t
      | .evalGreater =>
        evalInner ro fo p n (pc + 1)
          { fr with cond := decide (arg < fr.long.toInt) } fl r t
      | .evalEqual =>
        evalInner ro fo p n (pc + 1) { fr with cond := decide (fr.long.toInt = arg) } fl r t
      | .condJump =>
        if fr.cond then
          if arg < 0 then .err .panic else evalInner ro fo p n arg.toNat fr fl r t
        else evalInner ro fo p n (pc + 1) fr fl r t
      | .addLong =>
        evalInner ro fo p n (pc + 1) { fr with long := fr.long + BitVec.ofInt 64 arg } fl r t
      | .setLong => evalInner ro fo p n (pc + 1) { fr with long := BitVec.ofInt 64 arg } fl r t
      | .setInt => evalInner ro fo p n (pc + 1) { fr with int := BitVec.ofInt 32 arg } fl r t
      | .multLong =>
        evalInner ro fo p n (pc + 1) { fr with long := fr.long * BitVec.ofInt 64 arg } fl r t
      | .hintSize => match fo.hintSize t fr.long with
        | .error e => .err e
        | .ok t' => evalInner ro fo p n (pc + 1) fr fl r t'
      | .pushLoop => match evalInner ro fo p n (pc + 1) {} false r t with
        | .timeout => .timeout
        | .err e => .err e
        | .done ret => evalInner ro fo p n (ret.pc + 1) fr fl ret.r ret.t
      | .popLoop => .done ⟨false, pc, r, t⟩
      | .halt =>
        if arg = 0 then .done ⟨false, pc, r, t⟩
        else if arg < 0 then .err .panic
        else match p.errors[arg.toNat - 1]? with
          | some m => .err (.runtime m)
          | none => .err .panic
      | .nullField => match fo.nullField t arg with
        | .error e => .err e
        | .ok t' => evalInner ro fo p n (pc + 1) fr fl r t'

/-- `Eval`, v10/vm/eval.go:22-33: start at instruction 0; the outcome is the reader and
the target, or an error. -/
def evalProg (ro : ReaderOps R) (fo : FieldOps T) (p : Program) (fuel : Nat) (r : R) (t : T) :
    Out (R × T) :=
  match evalInner ro fo p fuel 0 {} false r t with
  | .timeout => .timeout
  | .err e => .err e
  | .done ret => .done (ret.r, ret.t)

/-- `Eval` ends with outcome `out` (which is not `timeout`). -/
def Evaluates (ro : ReaderOps R) (fo : FieldOps T) (p : Program) (r : R) (t : T)
    (out : Except Err (R × T)) : Prop :=
  ∃ fuel, evalProg ro fo p fuel r t =
    (match out with | .ok x => .done x | .error e => .err e)

end Verif
