import Verif.Spec.GoDecl
import Verif.Gen.AnyWriter
/-
The part of Go that generated serializers are written in: its syntax, the tokens it is written with, and what
it does (The Go Programming Language Specification, "Expressions", "Statements"). Signs of two characters are
two tokens here.

The calls that leave the generated package are those of vm (v10/vm/writers.go, modelled in Wire/Writer), of
`fmt.Errorf` (some error) and of the writer's `Write`.
-/
namespace Verif.Spec.Go
open Verif

/-! ### Syntax -/

/-- What is called: a function of the package, or `x.f`, where `x` is a package or a variable. -/
inductive Callee where
  | own (f : Str)
  | of (x f : Str)
  deriving DecidableEq

inductive Expr where
  | var (x : Str)
  | nil
  | num (n : Nat)
  | text (v : List Byte)
  /-- `e.f` -/
  | sel (e : Expr) (f : Str)
  | len (e : Expr)
  /-- `type(e)` -/
  | conv (type : Str) (e : Expr)
  | eq (a b : Expr)
  | ne (a b : Expr)
  | or (a b : Expr)
  /-- `e[:]` -/
  | all (e : Expr)
  | call (f : Callee) (args : List Expr)

inductive Stmt where
  /-- `var x type` -/
  | declare (x type : Str)
  /-- `x, … := e` -/
  | define (xs : List Str) (e : Expr)
  /-- `x, … = e` -/
  | assign (xs : List Str) (e : Expr)
  | cond (e : Expr) (body : List Stmt)
  /-- `for k, v := range e { … }` -/
  | range (k v : Str) (e : Expr) (body : List Stmt)
  /-- `switch e { case c: … }` -/
  | switch (e : Expr) (cases : List (Expr × List Stmt))
  | ret (e : Expr)

/-- `func name(x type, …) error { … }`, or a method: `func (x type) name(x type, …) error { … }` -/
structure Func where
  recv : Option (Str × GoTy)
  name : Str
  params : List (Str × GoTy)
  body : List Stmt

/-! ### Tokens -/

/-- With commas between. -/
def commas : List (List Tok) → List Tok
  | [] => []
  | [a] => a
  | a :: b :: l => a ++ .sign ',' :: commas (b :: l)

def Callee.toks : Callee → List Tok
  | .own f => [.word f]
  | .of x f => [.word x, .sign '.', .word f]

mutual
def Expr.toks : Expr → List Tok
  | .var x => [.word x]
  | .nil => [w "nil"]
  | .num n => [number n]
  | .text v => [.text v]
  | .sel e f => e.toks ++ [.sign '.', .word f]
  | .len e => w "len" :: .sign '(' :: (e.toks ++ [.sign ')'])
  | .conv type e => .word type :: .sign '(' :: (e.toks ++ [.sign ')'])
  | .eq a b => a.toks ++ .sign '=' :: .sign '=' :: b.toks
  | .ne a b => a.toks ++ .sign '!' :: .sign '=' :: b.toks
  | .or a b => a.toks ++ .sign '|' :: .sign '|' :: b.toks
  | .all e => e.toks ++ [.sign '[', .sign ':', .sign ']']
  | .call f args => f.toks ++ .sign '(' :: (commas (exprsToks args) ++ [.sign ')'])
def exprsToks : List Expr → List (List Tok)
  | [] => []
  | e :: es => e.toks :: exprsToks es
end

mutual
def Stmt.toks : Stmt → List Tok
  | .declare x type => [w "var", .word x, .word type, .sign ';']
  | .define xs e => commas (xs.map fun x => [.word x]) ++ .sign ':' :: .sign '=' :: (e.toks ++ [.sign ';'])
  | .assign xs e => commas (xs.map fun x => [.word x]) ++ .sign '=' :: (e.toks ++ [.sign ';'])
  | .cond e body => w "if" :: (e.toks ++ .sign '{' :: (stmtsToks body ++ [.sign '}', .sign ';']))
  | .range k v e body => w "for" :: .word k :: .sign ',' :: .word v :: .sign ':' :: .sign '=' :: w "range" ::
      (e.toks ++ .sign '{' :: (stmtsToks body ++ [.sign '}', .sign ';']))
  | .switch e cases => w "switch" :: (e.toks ++ .sign '{' :: (casesToks cases ++ [.sign '}', .sign ';']))
  | .ret e => w "return" :: (e.toks ++ [.sign ';'])
def stmtsToks : List Stmt → List Tok
  | [] => []
  | s :: ss => s.toks ++ stmtsToks ss
def casesToks : List (Expr × List Stmt) → List Tok
  | [] => []
  | (c, body) :: cs => w "case" :: (c.toks ++ .sign ':' :: (stmtsToks body ++ casesToks cs))
end

def Func.toks (f : Func) : List Tok :=
  w "func" :: ((match f.recv with
    | none => []
    | some r => .sign '(' :: .word r.1 :: (r.2.toks ++ [.sign ')'])) ++ .word f.name :: .sign '(' :: (commas (f.params.map fun p => .word p.1 :: p.2.toks) ++
    .sign ')' :: w "error" :: .sign '{' :: (stmtsToks f.body ++ [.sign '}', .sign ';'])))

/-! ### What it does -/

/-- Go values. `int` is `int`, `int64` and types made from them (on a platform of 64 bits), `bytes` a slice or an
array of bytes, `dict` a map from strings in the order of its keys, `ptr` a pointer that is not nil. -/
inductive Value where
  | bool (b : Bool)
  | int32 (v : BitVec 32)
  | int (v : BitVec 64)
  | float32 (v : BitVec 32)
  | float64 (v : BitVec 64)
  | str (bs : List Byte)
  | bytes (bs : List Byte)
  | slice (vs : List Value)
  | dict (es : List (List Byte × Value))
  | struct (fs : List (Str × Value))
  | ptr (v : Value)
  | nil
  | error (e : Option WErr)
  | writer

/-- The functions and the constants of a package. -/
structure Package where
  funcs : Str → Option Func
  consts : Str → Option Value

/-- What a run depends on besides: the `io.Writer`, whether it is a `vm.ByteWriter`, and the order in which each
loop over a map visits the entries (the `k`-th such loop, over `n` entries). -/
structure Machine (W : Type) where
  o : WriterOps W
  byteWriter : Bool
  order : Nat → Nat → List Nat
  orderPerm : ∀ k n, (order k n).Perm (List.range n)

/-- The writer, and how many loops over maps have begun. -/
structure World (W : Type) where
  w : W
  loops : Nat

/-- The variables, those of inner blocks first. -/
abbrev Locals := List (Str × Value)

/-- How a statement ends. -/
inductive Flow where
  | next (vars : Locals)
  | ret (vs : List Value)

/-- `x, … := values`. -/
def bind : List Str → List Value → Locals → Option Locals
  | [], [], vars => some vars
  | x :: xs, v :: vs, vars => bind xs vs (if x = "_".toList then vars else (x, v) :: vars)
  | _, _, _ => none

/-- Assignment to the innermost variable of that name. -/
def Locals.set (x : Str) (v : Value) : Locals → Option Locals
  | [] => none
  | (y, u) :: vars => if x = y then some ((y, v) :: vars) else (Locals.set x v vars).map ((y, u) :: ·)

/-- `x, … = values`. -/
def store : List Str → List Value → Locals → Option Locals
  | [], [], vars => some vars
  | x :: xs, v :: vs, vars => if x = "_".toList then store xs vs vars else (vars.set x v).bind (store xs vs)
  | _, _, _ => none

/-- The end of a block: its variables go. -/
def leave (outer : Locals) : Flow → Flow
  | .next vars => .next (vars.drop (vars.length - outer.length))
  | .ret vs => .ret vs

/-- `==`. -/
def same : Value → Value → Option Bool
  | .int a, .int b => some (decide (a = b))
  | .int32 a, .int32 b => some (decide (a = b))
  | .nil, .nil => some true
  | .ptr _, .nil => some false
  | .nil, .ptr _ => some false
  | .error e, .nil => some e.isNone
  | .nil, .error e => some e.isNone
  | _, _ => none

/-- `v.f`; the selector follows a pointer. There is none of a nil pointer: Go panics. -/
def member (f : Str) : Value → Option Value
  | .struct fs => fs.lookup f
  | .ptr (.struct fs) => fs.lookup f
  | _ => none

def length : Value → Option Value
  | .slice vs => some (.int (BitVec.ofNat 64 vs.length))
  | .dict es => some (.int (BitVec.ofNat 64 es.length))
  | _ => none

/-- Conversion of numbers. -/
def convert (type : Str) : Value → Option Value
  | .int v => if type = "int64".toList then some (.int v) else if type = "int32".toList then some (.int32 (v.setWidth 32)) else none
  | .int32 v => if type = "int64".toList then some (.int (v.signExtend 64)) else if type = "int32".toList then some (.int32 v) else none
  | _ => none

/-- What the functions of vm write, v10/vm/writers.go. -/
def vmWrites (bw : Bool) (f : Str) : Value → Option Trace
  | .bool b => if f = "WriteBool".toList then some (writeBool b) else if f = "WriteNull".toList then some writeNull else none
  | .int32 v => if f = "WriteInt".toList then some (writeInt bw v) else if f = "WriteNull".toList then some writeNull else none
  | .int v => if f = "WriteLong".toList then some (writeLong bw v) else if f = "WriteNull".toList then some writeNull else none
  | .float32 v => if f = "WriteFloat".toList then some (writeFloat bw v) else if f = "WriteNull".toList then some writeNull else none
  | .float64 v => if f = "WriteDouble".toList then some (writeDouble bw v) else if f = "WriteNull".toList then some writeNull else none
  | .bytes v => if f = "WriteBytes".toList then some (writeBytes bw v) else if f = "WriteNull".toList then some writeNull else none
  | .str v => if f = "WriteString".toList then some (writeString bw v) else if f = "WriteNull".toList then some writeNull else none
  | _ => if f = "WriteNull".toList then some writeNull else none

section
variable {W : Type} (M : Machine W)

/-- Calls of `Write` until one fails. -/
def put (t : Trace) (st : World W) : World W × Option WErr :=
  ({ st with w := (runSer M.o st.w (t, true)).1 }, (runSer M.o st.w (t, true)).2)

/-- Calls that leave the package. `var` is the value of the variable before the dot, if there is one. -/
def outside (x f : Str) (var : Option Value) (args : List Value) (st : World W) : Option (List Value × World W) :=
  match var with
  | some .writer => match args with
    | [.bytes bs] => if f = "Write".toList then
        some ([.int (BitVec.ofNat 64 bs.length), .error (put M [bs] st).2], (put M [bs] st).1) else none
    | _ => none
  | some _ => none
  | none =>
    if x = "vm".toList then match args with
      | [v, .writer] => (vmWrites M.byteWriter f v).map fun t => ([.error (put M t st).2], (put M t st).1)
      | _ => none
    else if x = "fmt".toList ∧ f = "Errorf".toList then some ([.error (some .invalid)], st)
    else none

/-- The entries in the order in which a loop visits them. -/
def visits (v : Value) (k : Nat) : Option (List (Value × Value)) :=
  match v with
  | .slice vs => some (vs.zipIdx.map fun x => (.int (BitVec.ofNat 64 x.2), x.1))
  | .dict es => some ((M.order k es.length).filterMap fun i => (es[i]?).map fun e => (.str e.1, e.2))
  | _ => none

/-- A loop over a map has begun. -/
def begun (v : Value) (st : World W) : World W :=
  match v with
  | .dict _ => { st with loops := st.loops + 1 }
  | _ => st

variable (P : Package)

mutual
/-- The values of an expression. `none` if the program panics or is no Go program, or if the number of steps
allowed by the first argument is not enough. -/
def eval : Nat → Locals → Expr → World W → Option (List Value × World W)
  | 0, _, _, _ => none
  | n + 1, vars, e, st => match e with
    | .var x => match vars.lookup x with
      | some v => some ([v], st)
      | none => (P.consts x).map fun v => ([v], st)
    | .nil => some ([.nil], st)
    | .num k => some ([.int (BitVec.ofNat 64 k)], st)
    | .text v => some ([.str v], st)
    | .sel e f => match eval n vars e st with
      | some ([v], st) => (member f v).map fun u => ([u], st)
      | _ => none
    | .len e => match eval n vars e st with
      | some ([v], st) => (length v).map fun u => ([u], st)
      | _ => none
    | .conv type e => match eval n vars e st with
      | some ([v], st) => (convert type v).map fun u => ([u], st)
      | _ => none
    | .eq a b => match eval n vars a st with
      | some ([u], st) => match eval n vars b st with
        | some ([v], st) => (same u v).map fun x => ([.bool x], st)
        | _ => none
      | _ => none
    | .ne a b => match eval n vars a st with
      | some ([u], st) => match eval n vars b st with
        | some ([v], st) => (same u v).map fun x => ([.bool (!x)], st)
        | _ => none
      | _ => none
    | .or a b => match eval n vars a st with
      | some ([.bool true], st) => some ([.bool true], st)
      | some ([.bool false], st) => eval n vars b st
      | _ => none
    | .all e => match eval n vars e st with
      | some ([.bytes bs], st) => some ([.bytes bs], st)
      | _ => none
    | .call f args => match evals n vars args st with
      | some (vs, st) => match f with
        | .own f => match P.funcs f with
          | some fn => call n fn vs st
          | none => none
        | .of x f => outside M x f (vars.lookup x) vs st
      | none => none
/-- The values of arguments. -/
def evals : Nat → Locals → List Expr → World W → Option (List Value × World W)
  | 0, _, _, _ => none
  | _ + 1, _, [], st => some ([], st)
  | n + 1, vars, e :: es, st => match eval n vars e st with
    | some ([v], st) => match evals n vars es st with
      | some (vs, st) => some (v :: vs, st)
      | none => none
    | _ => none
/-- A call of a function of the package, or of a method: then the receiver is the first of the values. -/
def call : Nat → Func → List Value → World W → Option (List Value × World W)
  | 0, _, _, _ => none
  | n + 1, f, args, st => match bind ((f.recv.toList ++ f.params).map (·.1)) args [] with
    | none => none
    | some vars => match block n vars f.body st with
      | some (.ret vs, st) => some (vs, st)
      | _ => none
/-- Statements one after the other. -/
def block : Nat → Locals → List Stmt → World W → Option (Flow × World W)
  | 0, _, _, _ => none
  | _ + 1, vars, [], st => some (.next vars, st)
  | n + 1, vars, s :: ss, st => match exec n vars s st with
    | some (.next vars, st) => block n vars ss st
    | r => r
/-- A statement. -/
def exec : Nat → Locals → Stmt → World W → Option (Flow × World W)
  | 0, _, _, _ => none
  | n + 1, vars, s, st => match s with
    | .declare x type => if type = "error".toList then some (.next ((x, .error none) :: vars), st) else none
    | .define xs e => match eval n vars e st with
      | some (vs, st) => (bind xs vs vars).map fun vars => (.next vars, st)
      | none => none
    | .assign xs e => match eval n vars e st with
      | some (vs, st) => (store xs vs vars).map fun vars => (.next vars, st)
      | none => none
    | .cond e body => match eval n vars e st with
      | some ([.bool true], st) => (block n vars body st).map fun r => (leave vars r.1, r.2)
      | some ([.bool false], st) => some (.next vars, st)
      | _ => none
    | .range k v e body => match eval n vars e st with
      | some ([c], st) => match visits M c st.loops with
        | some xs => loop n vars k v body xs (begun c st)
        | none => none
      | _ => none
    | .switch e cases => match eval n vars e st with
      | some ([v], st) => choose n vars v cases st
      | _ => none
    | .ret e => match eval n vars e st with
      | some (vs, st) => some (.ret vs, st)
      | none => none
/-- The rounds of a loop. -/
def loop : Nat → Locals → Str → Str → List Stmt → List (Value × Value) → World W → Option (Flow × World W)
  | 0, _, _, _, _, _, _ => none
  | _ + 1, vars, _, _, _, [], st => some (.next vars, st)
  | n + 1, vars, k, v, body, x :: xs, st => match bind [k, v] [x.1, x.2] vars with
    | none => none
    | some inner => match block n inner body st with
      | some (r, st) => match leave vars r with
        | .next vars => loop n vars k v body xs st
        | r => some (r, st)
      | none => none
/-- The first case whose value is that of the switch. -/
def choose : Nat → Locals → Value → List (Expr × List Stmt) → World W → Option (Flow × World W)
  | 0, _, _, _, _ => none
  | _ + 1, vars, _, [], st => some (.next vars, st)
  | n + 1, vars, v, (c, body) :: cases, st => match eval n vars c st with
    | some ([u], st) => match same v u with
      | some true => (block n vars body st).map fun r => (leave vars r.1, r.2)
      | some false => choose n vars v cases st
      | none => none
    | _ => none
end

/-- The call returns these values and leaves the world like this, if enough steps are allowed. -/
def Returns (f : Func) (args : List Value) (st : World W) (vs : List Value) (st' : World W) : Prop :=
  ∃ N, ∀ n, N ≤ n → call M P n f args st = some (vs, st')
end

end Verif.Spec.Go
