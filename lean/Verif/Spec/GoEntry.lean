import Verif.Spec.GoTarget
/-
The part of Go in which the generated functions are written by which a program starts to decode: `DeserializeX`,
`DeserializeXFromSchema`, `NewXReader`, `Read`, `NewXWriter`, and the import clause of a file. Statements, what they do, and how they
are written. The packages that these functions call are a parameter, `Lib`.
-/
namespace Verif.Spec.GoE
open Verif Spec.Go Spec.GoT

/-- A string: a variable, or what a method without arguments of a variable returns. -/
inductive Txt where
  | var (x : Str)
  | call (x m : Str)

/-- A variable, or a field of a variable. -/
inductive Path where
  | var (x : Str)
  | part (x f : Str)

/-- Statements. -/
inductive St where
  /-- `x := f()` -/
  | new (x f : Str)
  /-- `x, err := container.NewReader(r)` -/
  | openFile (x r : Str)
  /-- `d, err := compiler.CompileSchemaBytes([]byte(w), []byte(r))` -/
  | compile (d : Str) (w r : Txt)
  /-- `if err != nil { return x, err }`; `x` may be `nil` -/
  | giveUp (x : Str)
  /-- `err = vm.Eval(src, prog, &x)`, with `:=` if `first`, without `&` if not `addr` -/
  | eval (first : Bool) (src prog : Path) (addr : Bool) (x : Str)
  /-- `return x, err` -/
  | ret (x : Str)
  /-- `return &T{r: x, p: d,}, nil` -/
  | retReader (T x d : Str)
  /-- `return container.NewWriter(a, b, c, s)` -/
  | retWriter (a b c : Str) (s : Txt)

/-- A function, or a method if it has a receiver. Types are given as they are written. -/
structure Fn where
  recv : Option (Str × Str) := none
  name : Str
  params : List (Str × List Tok)
  result : List Tok
  body : List St

/-! ### Tokens -/

def Txt.toks : Txt → List Tok
  | .var x => [.word x]
  | .call x m => [.word x, .sign '.', .word m, .sign '(', .sign ')']

def Path.toks : Path → List Tok
  | .var x => [.word x]
  | .part x f => [.word x, .sign '.', .word f]

/-- `[]byte(s)` -/
def bytesOfToks (s : Txt) : List Tok := [.sign '[', .sign ']', w "byte", .sign '('] ++ s.toks ++ [.sign ')']

def St.toks : St → List Tok
  | .new x f => [.word x, .sign ':', .sign '=', .word f, .sign '(', .sign ')', .sign ';']
  | .openFile x r => [.word x, .sign ',', w "err", .sign ':', .sign '=', w "container", .sign '.', w "NewReader", .sign '(', .word r, .sign ')', .sign ';']
  | .compile d a b => [.word d, .sign ',', w "err", .sign ':', .sign '=', w "compiler", .sign '.', w "CompileSchemaBytes", .sign '('] ++ bytesOfToks a ++
      .sign ',' :: (bytesOfToks b ++ [.sign ')', .sign ';'])
  | .giveUp x => [w "if", w "err", .sign '!', .sign '=', w "nil", .sign '{', w "return", .word x, .sign ',', w "err", .sign ';', .sign '}', .sign ';']
  | .eval first src prog addr x => w "err" :: ((if first then [.sign ':'] else []) ++ [.sign '=', w "vm", .sign '.', w "Eval", .sign '('] ++ src.toks ++
      .sign ',' :: (prog.toks ++ .sign ',' :: ((if addr then [.sign '&'] else []) ++ [.word x, .sign ')', .sign ';'])))
  | .ret x => [w "return", .word x, .sign ',', w "err", .sign ';']
  | .retReader T x d => [w "return", .sign '&', .word T, .sign '{', w "r", .sign ':', .word x, .sign ',', w "p", .sign ':', .word d, .sign ',', .sign '}', .sign ',', w "nil",
      .sign ';']
  | .retWriter a b c s => [w "return", w "container", .sign '.', w "NewWriter", .sign '(', .word a, .sign ',', .word b, .sign ',', .word c, .sign ','] ++ s.toks ++
      [.sign ')', .sign ';']

def stsToks : List St → List Tok
  | [] => []
  | s :: l => s.toks ++ stsToks l

def recvToks : Option (Str × Str) → List Tok
  | none => []
  | some (x, T) => [.sign '(', .word x, .word T, .sign ')']

/-- Parameters, separated by commas. -/
def paramsToks : List (Str × List Tok) → List Tok
  | [] => []
  | [p] => .word p.1 :: p.2
  | p :: q :: l => .word p.1 :: (p.2 ++ .sign ',' :: paramsToks (q :: l))

/-- A function with two results, the second an error. -/
def Fn.toks (f : Fn) : List Tok :=
  w "func" :: (recvToks f.recv ++ .word f.name :: .sign '(' :: (paramsToks f.params ++ .sign ')' :: .sign '(' :: (f.result ++
    [.sign ',', w "error", .sign ')', .sign '{'] ++ stsToks f.body ++ [.sign '}', .sign ';'])))

/-- An import clause. -/
def importToks (paths : List Str) : List Tok :=
  [w "import", .sign '('] ++ paths.flatMap (fun p => [.text (bytesOf p), .sign ';']) ++ [.sign ')', .sign ';']

/-! ### What the statements do -/

/-- What the functions call: the constructors of the package, by name; methods of values that return a string; `compiler.CompileSchemaBytes`;
`vm.Eval`, with the value and the input afterwards; `container.NewReader`, methods of an open file that return a string, and
`container.NewWriter`. A call may have more than one outcome. Errors other than nil. `points`: the value is a pointer to a struct, so
that a variable with it can be handed to `vm.Eval`; of others the address is. -/
structure Lib where
  Value : Type
  Reader : Type
  Program : Type
  Error : Type
  Other : Type
  points : Value → Bool
  new : Str → Value → Prop
  text : Value → Str → List Byte → Prop
  compile : List Byte → List Byte → Except Error Program → Prop
  eval : Reader → Program → Value → Value → Reader → Option Error → Prop
  openFile : Reader → Except Error Reader → Prop
  fileText : Reader → Str → List Byte → Prop
  newWriter : Other → Other → Other → List Byte → Other → Option Error → Prop

/-- What variables hold. A reader is an object that all variables share which hold it; no function here has two variables for one. -/
inductive Obj (L : Lib) where
  | value (v : L.Value)
  | reader (r : L.Reader)
  | program (p : L.Program)
  | text (s : List Byte)
  /-- the struct of a container reader -/
  | both (r : L.Reader) (p : L.Program)
  | other (a : L.Other)
  | nil

/-- Variables. -/
abbrev Vars (L : Lib) := Str → Option (Obj L)

def Vars.set {L : Lib} (S : Vars L) (x : Str) (o : Obj L) : Vars L := fun y => if y = x then some o else S y

/-- No variables. -/
def Vars.none {L : Lib} : Vars L := fun _ => .none

/-- A string. -/
inductive Gives {L : Lib} (S : Vars L) : Txt → List Byte → Prop where
  | var {x s} : S x = some (.text s) → Gives S (.var x) s
  | value {x m v s} : S x = some (.value v) → L.text v m s → Gives S (.call x m) s
  | file {x m r s} : S x = some (.reader r) → L.fileText r m s → Gives S (.call x m) s

/-- A reader in a variable or in the field `r`, and the variables when another has taken its place. -/
inductive Reader {L : Lib} (S : Vars L) : Path → L.Reader → (L.Reader → Vars L) → Prop where
  | var {x r} : S x = some (.reader r) → Reader S (.var x) r (fun r' => S.set x (.reader r'))
  | part {x r p} : S x = some (.both r p) → Reader S (.part x "r".toList) r (fun r' => S.set x (.both r' p))

/-- A program in a variable or in the field `p`. -/
inductive Program {L : Lib} (S : Vars L) : Path → L.Program → Prop where
  | var {x p} : S x = some (.program p) → Program S (.var x) p
  | part {x r p} : S x = some (.both r p) → Program S (.part x "p".toList) p

/-- How a function ends: the two results, and the variables. -/
structure Ended (L : Lib) where
  result : Obj L
  err : Option L.Error
  vars : Vars L

/-- `x`, where `x` may be `nil`. -/
def operand {L : Lib} (S : Vars L) (x : Str) : Option (Obj L) := if x = "nil".toList then some .nil else S x

/-- Statements, with the variables and what `err` holds (`none`: nil). -/
inductive Runs (L : Lib) : List St → Vars L → Option L.Error → Ended L → Prop where
  | new {x f v l S e o} : L.new f v → Runs L l (S.set x (.value v)) e o → Runs L (.new x f :: l) S e o
  | opened {x y r r' l S e o} : S y = some (.reader r) → L.openFile r (.ok r') → Runs L l (S.set x (.reader r')) none o →
      Runs L (.openFile x y :: l) S e o
  | notOpened {x y r er l S e o} : S y = some (.reader r) → L.openFile r (.error er) → Runs L l (S.set x .nil) (some er) o →
      Runs L (.openFile x y :: l) S e o
  | compiled {d a b s t p l S e o} : Gives S a s → Gives S b t → L.compile s t (.ok p) → Runs L l (S.set d (.program p)) none o →
      Runs L (.compile d a b :: l) S e o
  | notCompiled {d a b s t er l S e o} : Gives S a s → Gives S b t → L.compile s t (.error er) → Runs L l (S.set d .nil) (some er) o →
      Runs L (.compile d a b :: l) S e o
  | goOn {x l S o} : Runs L l S none o → Runs L (.giveUp x :: l) S none o
  | gaveUp {x ob l S er} : operand S x = some ob → Runs L (.giveUp x :: l) S (some er) ⟨ob, some er, S⟩
  | eval {f a b addr x r T p v v' r' er l S e o} : Reader S a r T → Program S b p → S x = some (.value v) → addr = !L.points v → L.eval r p v v' r' er →
      Runs L l (Vars.set (T r') x (.value v')) er o → Runs L (.eval f a b addr x :: l) S e o
  | ret {x ob l S e} : operand S x = some ob → Runs L (.ret x :: l) S e ⟨ob, e, S⟩
  | retReader {T x d r p l S e} : S x = some (.reader r) → S d = some (.program p) → Runs L (.retReader T x d :: l) S e ⟨.both r p, none, S⟩
  | retWriter {a b c s oa ob oc t ow er l S e} : S a = some (.other oa) → S b = some (.other ob) → S c = some (.other oc) → Gives S s t →
      L.newWriter oa ob oc t ow er → Runs L (.retWriter a b c s :: l) S e ⟨.other ow, er, S⟩

/-- Variables with values. -/
def bind {L : Lib} : List Str → List (Obj L) → Vars L
  | x :: xs, a :: as => (bind xs as).set x a
  | _, _ => Vars.none

/-- A call, with the receiver before the arguments if there is one, and how it ends. -/
def Calls (L : Lib) (f : Fn) (args : List (Obj L)) (o : Ended L) : Prop :=
  Runs L f.body (bind ((f.recv.map (·.1)).toList ++ f.params.map (·.1)) args) none o

end Verif.Spec.GoE
