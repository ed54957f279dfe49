import Verif.Spec.GoShape
import Verif.Gen.Memory
/-
The part of Go that the methods of generated targets are written in (`Get`, `AppendArray`, `Finalize`, …): its
syntax, the tokens it is written with, and what it does to memory (The Go Programming Language Specification,
"Expressions", "Statements", "Address operators", "Making slices, maps and channels", "Appending to and copying
slices"). Memory is that of Spec/Memory. `int` is 64 bits wide.

A program stops with `panic` where Go panics, and where a variable does not hold what its type says; it stops
with `stuck` where it does not fit together: a name that is not declared, an operation on the wrong type.
-/
namespace Verif.Spec.GoT
open Verif Verif.Spec.Go

/-! ### Syntax -/

inductive Ex where
  | var (x : Str)
  | num (n : Nat)
  | nil
  /-- `e.f` -/
  | sel (e : Ex) (f : Str)
  /-- `*e` -/
  | star (e : Ex)
  /-- `&e` -/
  | amp (e : Ex)
  /-- `(e)` -/
  | par (e : Ex)
  /-- `e[i]` -/
  | idx (e i : Ex)
  | len (e : Ex)
  /-- `e-1` -/
  | pred (e : Ex)
  | eq (a b : Ex)
  /-- `make(T)`, a map -/
  | makeMap (ty : GoTy)
  /-- `make(T, 0)`, a slice -/
  | makeSlice (ty : GoTy)
  /-- `make(T, 0, c)`, a slice -/
  | makeRoom (ty : GoTy) (c : Ex)
  /-- `make([]string, 0, c)` for the field `keys` of a wrapper: this slice is described by its items, not by
  an array in memory -/
  | makeKeys (c : Ex)
  /-- `append(a, b)` -/
  | append (a b : Ex)
  /-- `T{Target: e}` -/
  | lit (ty : GoTy) (e : Ex)
  /-- `f()` -/
  | call (f : Str)
  /-- `T(e)`, where `T` is a type with a declaration -/
  | conv (ty : GoTy) (e : Ex)
  /-- `T(e)`, where `T` is `int64`, `float32`, `float64`, `string` or `[]byte` -/
  | basic (ty : GoTy) (e : Ex)
  /-- `(T)(e)` -/
  | cast (ty : GoTy) (e : Ex)

inductive St where
  /-- `var x T` -/
  | declare (x : Str) (ty : GoTy)
  /-- `x := e` -/
  | define (x : Str) (e : Ex)
  /-- `l = e` -/
  | assign (l e : Ex)
  | cond (e : Ex) (body : List St)
  /-- `switch (e) { case 0: … }` -/
  | switch (e : Ex) (cases : List (Nat × List St))
  /-- `for x := range e { … }` -/
  | range (x : Str) (e : Ex) (body : List St)
  /-- `return` -/
  | leave
  /-- `return e` -/
  | ret (e : Ex)
  | panic (text : Str)
  /-- `copy(a[:], b)` -/
  | copy (a b : Ex)

/-- `func (x T) name(x T, …) R { … }`. A parameter without a name has the name `[]`. `short` if all stands in one
line, so that no semicolon comes before the last brace. -/
structure Method where
  recv : Str × GoTy
  name : Str
  params : List (Str × GoTy)
  result : Option GoTy
  body : List St
  short : Bool := false

/-! ### Tokens -/

def Ex.toks : Ex → List Tok
  | .var x => [.word x]
  | .num n => [number n]
  | .nil => [w "nil"]
  | .sel e f => e.toks ++ [.sign '.', .word f]
  | .star e => .sign '*' :: e.toks
  | .amp e => .sign '&' :: e.toks
  | .par e => .sign '(' :: (e.toks ++ [.sign ')'])
  | .idx e i => e.toks ++ .sign '[' :: (i.toks ++ [.sign ']'])
  | .len e => w "len" :: .sign '(' :: (e.toks ++ [.sign ')'])
  | .pred e => e.toks ++ [.sign '-', number 1]
  | .eq a b => a.toks ++ .sign '=' :: .sign '=' :: b.toks
  | .makeMap ty => w "make" :: .sign '(' :: (ty.toks ++ [.sign ')'])
  | .makeSlice ty => w "make" :: .sign '(' :: (ty.toks ++ [.sign ',', number 0, .sign ')'])
  | .makeRoom ty c => w "make" :: .sign '(' :: (ty.toks ++ .sign ',' :: number 0 :: .sign ',' :: (c.toks ++ [.sign ')']))
  | .makeKeys c => w "make" :: .sign '(' :: .sign '[' :: .sign ']' :: w "string" :: .sign ',' :: number 0 :: .sign ',' ::
      (c.toks ++ [.sign ')'])
  | .append a b => w "append" :: .sign '(' :: (a.toks ++ .sign ',' :: (b.toks ++ [.sign ')']))
  | .lit ty e => ty.toks ++ .sign '{' :: w "Target" :: .sign ':' :: (e.toks ++ [.sign '}'])
  | .call f => [.word f, .sign '(', .sign ')']
  | .conv ty e => ty.toks ++ .sign '(' :: (e.toks ++ [.sign ')'])
  | .basic ty e => ty.toks ++ .sign '(' :: (e.toks ++ [.sign ')'])
  | .cast ty e => .sign '(' :: (ty.toks ++ .sign ')' :: .sign '(' :: (e.toks ++ [.sign ')']))

mutual
/-- A statement, without the semicolon after it. -/
def St.toks : St → List Tok
  | .declare x ty => w "var" :: .word x :: ty.toks
  | .define x e => .word x :: .sign ':' :: .sign '=' :: e.toks
  | .assign l e => l.toks ++ .sign '=' :: e.toks
  | .cond e body => w "if" :: (e.toks ++ .sign '{' :: (stsToks body ++ [.sign '}']))
  | .switch e cases => w "switch" :: .sign '(' :: (e.toks ++ .sign ')' :: .sign '{' :: (casesToks cases ++ [.sign '}']))
  | .range x e body => w "for" :: .word x :: .sign ':' :: .sign '=' :: w "range" :: (e.toks ++ .sign '{' :: (stsToks body ++ [.sign '}']))
  | .leave => [w "return"]
  | .ret e => w "return" :: e.toks
  | .panic s => [w "panic", .sign '(', .text (bytesOf s), .sign ')']
  | .copy a b => w "copy" :: .sign '(' :: (a.toks ++ .sign '[' :: .sign ':' :: .sign ']' :: .sign ',' :: (b.toks ++ [.sign ')']))
def stsToks : List St → List Tok
  | [] => []
  | s :: ss => s.toks ++ .sign ';' :: stsToks ss
def casesToks : List (Nat × List St) → List Tok
  | [] => []
  | (c, body) :: cs => w "case" :: number c :: .sign ':' :: (stsToks body ++ casesToks cs)
end

/-- With commas between. -/
def commas : List (List Tok) → List Tok
  | [] => []
  | [a] => a
  | a :: b :: l => a ++ .sign ',' :: commas (b :: l)

/-- A parameter. -/
def paramToks (p : Str × GoTy) : List Tok := (if p.1 = [] then [] else [.word p.1]) ++ p.2.toks

/-- The type of the result, if there is one. -/
def resultToks : Option GoTy → List Tok
  | none => []
  | some ty => ty.toks

/-- The tokens of a method. -/
def Method.toks (m : Method) : List Tok :=
  w "func" :: .sign '(' :: .word m.recv.1 :: (m.recv.2.toks ++ .sign ')' :: .word m.name :: .sign '(' ::
    (commas (m.params.map paramToks) ++ .sign ')' :: (resultToks m.result ++ .sign '{' ::
    ((if m.short then (stsToks m.body).dropLast else stsToks m.body) ++ [.sign '}', .sign ';']))))

/-! ### Values and variables -/

/-- `*types.NullVal` -/
def nullPtr : GoTy := .pointer (.of "types".toList "NullVal".toList)

/-- Go values. -/
inductive Gv where
  | bool (b : Bool)
  | int (i : Int)
  | int32 (v : BitVec 32)
  | int64 (v : BitVec 64)
  | float32 (v : BitVec 32)
  | float64 (v : BitVec 64)
  | bytes (bs : List Byte)
  | str (s : List Byte)
  | nil
  /-- the nil pointer of the type `*types.NullVal`, which is its only value -/
  | nullVal
  /-- a value of a generated type, or a slice, map or pointer, as a variable holds it -/
  | data (ty : GoTy) (v : Var)
  /-- a pointer that is not nil to a variable of the type `ty` -/
  | ptr (ty : GoTy) (p : Place)
  /-- a struct `ty{Target: t}`, or a pointer to one. (Nothing changes the field `Target` of such a struct: it
  does not matter whether it has been copied.) -/
  | lit (ty : GoTy) (t : Gv)
  /-- a pointer to a struct of the type `ty` with the fields `Target`, `keys` and `values`; the last two are in
  memory at the address `a` -/
  | keyed (ty : GoTy) (t : Gv) (a : Nat)
  /-- a `[]string`; `none` for nil -/
  | strs (ks : Option (List (List Byte)))

/-- What can be assigned to, except for the names of variables. -/
inductive Loc where
  /-- the variable at `p`, of the type `ty` -/
  | at (p : Place) (ty : GoTy)
  /-- the field `UnionType` of the struct at `p` -/
  | tag (p : Place)
  | keys (a : Nat)
  | values (a : Nat) (ty : GoTy)
  /-- the entry of a map -/
  | entry (a : Nat) (k : List Byte)

/-- What an expression stands for. -/
inductive Opd where
  | val (g : Gv)
  | loc (l : Loc)

inductive Stop where
  | panic
  | stuck
  deriving DecidableEq

/-- A struct type: its fields, and whether it has a field `UnionType` besides. -/
structure StructTy where
  fields : List (Str × GoTy)
  union : Bool

/-- The position and the type of a field. -/
def fieldAt (f : Str) : Nat → List (Str × GoTy) → Option (Nat × GoTy)
  | _, [] => none
  | i, (g, ty) :: fs => if g = f then some (i, ty) else fieldAt f (i + 1) fs

/-- What a package declares, and the bounds of the machine: how many items `make` gives room for, and how much
more room `append` makes than is needed. -/
structure Pack where
  structs : Str → Option StructTy
  /-- arrays of bytes, and their sizes -/
  arrays : Str → Option Nat
  /-- the struct types with the fields `keys` and `values` -/
  keyed : GoTy → Bool
  /-- the functions without parameters: the type of the result, and what they do -/
  funcs : Str → Option (GoTy × (Mem → Var × Mem))
  /-- the methods of a type -/
  methods : Str → Str → Option Method
  lim : Nat
  grow : Nat → Nat

/-- A value as a variable holds it. -/
def Gv.asVar : Gv → Option Var
  | .nil => some .nil
  | .data _ v => some v
  | .ptr _ ⟨a, []⟩ => some (.ptr a)
  | .bool b => some (.prim (.bool b))
  | .int32 v => some (.prim (.int v))
  | .int64 v => some (.prim (.long v))
  | .float32 v => some (.prim (.float v))
  | .float64 v => some (.prim (.double v))
  | .bytes bs => some (.prim (.bytes bs))
  | .str s => some (.prim (.string s))
  | _ => none

/-- A conversion to one of Go's own types: numbers keep their value if they can, and are rounded otherwise; strings and
slices of bytes keep their bytes. -/
def convert (ty : GoTy) : Gv → Except Stop Gv
  | .int32 v =>
    if ty = .named "int64".toList then .ok (.int64 (v.signExtend 64))
    else if ty = .named "float32".toList then .ok (.float32 (intToFloat32 v.toInt))
    else if ty = .named "float64".toList then .ok (.float64 (intToFloat64 v.toInt))
    else .error .stuck
  | .int64 v =>
    if ty = .named "float32".toList then .ok (.float32 (intToFloat32 v.toInt))
    else if ty = .named "float64".toList then .ok (.float64 (intToFloat64 v.toInt))
    else .error .stuck
  | .float32 v => if ty = .named "float64".toList then .ok (.float64 (float32To64 v)) else .error .stuck
  | .bytes bs => if ty = .named "string".toList then .ok (.str bs) else .error .stuck
  | .str s => if ty = .slice (.named "byte".toList) then .ok (.bytes s) else .error .stuck
  | _ => .error .stuck

/-- What a variable of the type `ty` holds, as a value. -/
def ofVar (ty : GoTy) (v : Var) : Gv :=
  match ty, v with
  | .pointer t, .ptr a => .ptr t ⟨a, []⟩
  | ty, v => .data ty v

/-- The value of an operand. -/
def load (h : Mem) : Opd → Except Stop Gv
  | .val g => .ok g
  | .loc (.at p ty) => match h.read p with
    | some v => .ok (ofVar ty v)
    | none => .error .panic
  | .loc (.keys a) => match h[a]? with
    | some (.wrapper ks _) => .ok (.strs ks)
    | _ => .error .panic
  | .loc (.values a ty) => match h[a]? with
    | some (.wrapper _ v) => .ok (.data ty v)
    | _ => .error .panic
  | .loc _ => .error .stuck

/-- An assignment. -/
def store (h : Mem) (l : Loc) (g : Gv) : Except Stop Mem :=
  match l with
  | .at p _ => match g.asVar with
    | some v => .ok (h.write p v)
    | none => .error .stuck
  | .tag p => match g with
    | .int64 v => match h.read p with
      | some (.struct _ fs) => .ok (h.write p (.struct v fs))
      | _ => .error .panic
    | _ => .error .stuck
  | .keys a => match g with
    | .strs ks => match h[a]? with
      | some (.wrapper _ v) => .ok (h.set a (.wrapper ks v))
      | _ => .error .panic
    | _ => .error .stuck
  | .values a _ => match g.asVar with
    | some v => match h[a]? with
      | some (.wrapper ks _) => .ok (h.set a (.wrapper ks v))
      | _ => .error .panic
    | none => .error .stuck
  | .entry a k => match g.asVar with
    | some v => match h[a]? with
      | some (.map es) => .ok (h.set a (.map (mapInsert k v es)))
      | _ => .error .panic
    | none => .error .stuck

/-- The zero value of a type. -/
def zero (ty : GoTy) : Gv := .data ty (if ty = nullPtr then .prim .null else .junk)

/-! ### What expressions do -/

/-- `g.f` -/
def select (P : Pack) (g : Gv) (f : Str) : Except Stop Opd :=
  match g with
  | .lit _ t => if f = "Target".toList then .ok (.val t) else .error .stuck
  | .keyed _ t a =>
    if f = "Target".toList then .ok (.val t)
    else if f = "keys".toList then .ok (.loc (.keys a))
    else if f = "values".toList then match t with
      | .ptr (.dict ty) _ => .ok (.loc (.values a (.slice ty)))
      | _ => .error .stuck
    else .error .stuck
  | .ptr (.named T) p => match P.structs T with
    | none => .error .stuck
    | some s => match fieldAt f 0 s.fields with
      | some (i, ty) => .ok (.loc (.at (p.field i) ty))
      | none => if s.union ∧ f = "UnionType".toList then .ok (.loc (.tag p)) else .error .stuck
  | _ => .error .stuck

/-- `g[k]` -/
def index (g k : Gv) : Except Stop Opd :=
  match g, k with
  | .data (.slice ty) (.slice a n), .int k =>
    if 0 ≤ k ∧ k < n then .ok (.loc (.at ⟨a, [k.toNat]⟩ ty)) else .error .panic
  | .data (.slice _) _, .int _ => .error .panic
  | .data (.dict _) (.map a), .str k => .ok (.loc (.entry a k))
  | .data (.dict _) _, .str _ => .error .panic
  | .strs ks, .int k => if 0 ≤ k then match (ks.getD [])[k.toNat]? with
      | some s => .ok (.val (.str s))
      | none => .error .panic
    else .error .panic
  | _, _ => .error .stuck

/-- `len(g)` -/
def length (g : Gv) : Except Stop Nat :=
  match g with
  | .data (.slice _) (.slice _ n) => .ok n
  | .data (.slice _) .nil => .ok 0
  | .data (.slice _) _ => .error .panic
  | .strs ks => .ok (ks.getD []).length
  | _ => .error .stuck

/-- `a == b`, for numbers, and for a `[]string` and nil -/
def equal (a b : Gv) : Except Stop Bool :=
  match a, b with
  | .int i, .int j => .ok (decide (i = j))
  | .strs ks, .nil => .ok (decide (ks = none))
  | _, _ => .error .stuck

/-- A new slice without items and with room for `c`. -/
def makeSliceOf (ty : GoTy) (c : Nat) (h : Mem) : Gv × Mem :=
  (.data ty (.slice h.length 0), h ++ [.var (.struct 0 (List.replicate c .junk))])

/-- `append(a, b)` -/
def appendTo (P : Pack) (a b : Gv) (h : Mem) : Except Stop (Gv × Mem) :=
  match a, b with
  | .strs ks, .str s => .ok (.strs (some (ks.getD [] ++ [s])), h)
  | .data (.slice ty) s, b => match b.asVar with
    | none => .error .stuck
    | some v => match memAppend P.grow s v h with
      | some (s', _, h') => .ok (.data (.slice ty) s', h')
      | none => .error .panic
  | _, _ => .error .stuck

/-- `&o` -/
def address (P : Pack) (o : Opd) (h : Mem) : Except Stop (Gv × Mem) :=
  match o with
  | .loc (.at p ty) => .ok (.ptr ty p, h)
  | .val (.lit ty t) =>
    if P.keyed ty then .ok (.keyed ty t h.length, h ++ [.wrapper none .nil]) else .ok (.lit ty t, h)
  | _ => .error .stuck

/-- The names of variables and what they hold. -/
abbrev Vars := List (Str × Gv)

/-- What an expression stands for, and memory afterwards. -/
def opd (P : Pack) (vars : Vars) : Ex → Mem → Except Stop (Opd × Mem)
  | .var x, h => match vars.lookup x with
    | some g => .ok (.val g, h)
    | none => .error .stuck
  | .num n, h => .ok (.val (.int n), h)
  | .nil, h => .ok (.val .nil, h)
  | .sel e f, h => do
    let (o, h) ← opd P vars e h
    let g ← load h o
    let o ← select P g f
    pure (o, h)
  | .star e, h => do
    let (o, h) ← opd P vars e h
    let g ← load h o
    match g with
      | .ptr ty p => match h.read p with
        | some _ => pure (.loc (.at p ty), h)
        | none => .error .panic
      | _ => .error .stuck
  | .amp e, h => do
    let (o, h) ← opd P vars e h
    let (g, h) ← address P o h
    pure (.val g, h)
  | .par e, h => opd P vars e h
  | .idx e i, h => do
    let (o, h) ← opd P vars e h
    let g ← load h o
    let (o, h) ← opd P vars i h
    let k ← load h o
    let o ← index g k
    pure (o, h)
  | .len e, h => do
    let (o, h) ← opd P vars e h
    let g ← load h o
    let n ← length g
    pure (.val (.int n), h)
  | .pred e, h => do
    let (o, h) ← opd P vars e h
    let g ← load h o
    match g with
      | .int i => pure (.val (.int (i - 1)), h)
      | _ => .error .stuck
  | .eq a b, h => do
    let (o, h) ← opd P vars a h
    let x ← load h o
    let (o, h) ← opd P vars b h
    let y ← load h o
    let r ← equal x y
    pure (.val (.bool r), h)
  | .makeMap ty, h => .ok (.val (.data ty (.map h.length)), h ++ [.map []])
  | .makeSlice ty, h => match makeSliceOf ty 0 h with
    | (g, h) => .ok (.val g, h)
  | .makeRoom ty c, h => do
    let (o, h) ← opd P vars c h
    let g ← load h o
    match g with
      | .int c =>
        if c < 0 ∨ (P.lim : Int) < c then .error .panic
        else match makeSliceOf ty c.toNat h with
          | (g, h) => pure (.val g, h)
      | _ => .error .stuck
  | .makeKeys c, h => do
    let (o, h) ← opd P vars c h
    let g ← load h o
    match g with
      | .int c => if c < 0 ∨ (P.lim : Int) < c then .error .panic else pure (.val (.strs (some [])), h)
      | _ => .error .stuck
  | .append a b, h => do
    let (o, h) ← opd P vars a h
    let x ← load h o
    let (o, h) ← opd P vars b h
    let y ← load h o
    let (g, h) ← appendTo P x y h
    pure (.val g, h)
  | .lit ty e, h => do
    let (o, h) ← opd P vars e h
    let g ← load h o
    pure (.val (.lit ty g), h)
  | .call f, h => match P.funcs f with
    | none => .error .stuck
    | some (ty, f) => match f h with
      | (v, h) => .ok (.val (.data ty v), h)
  | .conv ty e, h => do
    let (o, h) ← opd P vars e h
    let g ← load h o
    match g with
      | .int32 v => pure (.val (.data ty (.prim (.enum v))), h)
      | _ => .error .stuck
  | .basic ty e, h => do
    let (o, h) ← opd P vars e h
    let g ← load h o
    let g ← convert ty g
    pure (.val g, h)
  | .cast _ e, h => do
    let (o, h) ← opd P vars e h
    let g ← load h o
    match g with
      | .int64 v => pure (.val (.int64 v), h)
      | _ => .error .stuck

/-- The value of an expression. -/
def value (P : Pack) (vars : Vars) (e : Ex) (h : Mem) : Except Stop (Gv × Mem) := do
  let (o, h) ← opd P vars e h
  let g ← load h o
  pure (g, h)

/-! ### What statements do -/

/-- How a statement ends: with the next one, or with the end of the method. -/
inductive Flow where
  | next (vars : Vars)
  | done (g : Option Gv)

/-- A round of a loop for each number below `n`, from `i` on. -/
def rounds (f : Nat → Mem → Except Stop (Flow × Mem)) : Nat → Nat → Mem → Except Stop (Option (Option Gv) × Mem)
  | 0, _, h => .ok (none, h)
  | n + 1, i, h => do
    let (s, h) ← f i h
    match s with
      | .next _ => rounds f n (i + 1) h
      | .done g => pure (some g, h)

/-- An operand is returned as a target. A variable of the type `*types.NullVal` holds nil, since there is no other
value of this type; where memory does not say so yet it does from then on. Another pointer that is nil, or is not
described, is counted as a panic here; its methods panic. -/
def result (h : Mem) : Opd → Except Stop (Gv × Mem)
  | .loc (.at p ty) =>
    if ty = nullPtr then .ok (.nullVal, h.write p (.prim .null)) else
    match h.read p with
    | none => .error .panic
    | some v => match ofVar ty v with
      | .data _ _ => .error .panic
      | g => .ok (g, h)
  | .val (.data _ _) => .error .panic
  | .val g => .ok (g, h)
  | _ => .error .stuck

mutual
/-- A statement. Assigning to a name changes what the name stands for. The names a block declares are not
hidden after it (they are not used there). -/
def step (P : Pack) (vars : Vars) : St → Mem → Except Stop (Flow × Mem)
  | .declare x ty, h => .ok (.next ((x, zero ty) :: vars), h)
  | .define x e, h => do
    let (g, h) ← value P vars e h
    pure (.next ((x, g) :: vars), h)
  | .assign (.var x) e, h => do
    let (g, h) ← value P vars e h
    pure (.next ((x, g) :: vars), h)
  | .assign l e, h => do
    let (o, h) ← opd P vars l h
    let (g, h) ← value P vars e h
    match o with
      | .loc l => do
        let h ← store h l g
        pure (.next vars, h)
      | .val _ => .error .stuck
  | .cond e body, h => do
    let (g, h) ← value P vars e h
    match g with
      | .bool true => steps P vars body h
      | .bool false => pure (.next vars, h)
      | _ => .error .stuck
  | .switch e cases, h => do
    let (g, h) ← value P vars e h
    match g with
      | .int i => choose P vars i cases h
      | _ => .error .stuck
  | .range x e body, h => do
    let (g, h) ← value P vars e h
    let n ← length g
    let (r, h) ← rounds (fun i h => steps P ((x, .int i) :: vars) body h) n 0 h
    match r with
      | none => pure (.next vars, h)
      | some g => pure (.done g, h)
  | .leave, h => .ok (.done none, h)
  | .ret e, h => do
    let (o, h) ← opd P vars e h
    let (g, h) ← result h o
    pure (.done (some g), h)
  | .panic _, _ => .error .panic
  | .copy a b, h => do
    let (o, h) ← opd P vars a h
    let (g, h) ← value P vars b h
    match o, g with
      | .loc (.at p (.named T)), .bytes bs => match P.arrays T, h.read p with
        | some n, some old =>
          pure (.next vars, h.write p (.prim (.fixed (bs.take n ++ ((fixedBytes n old.old).take n).drop bs.length))))
        | some _, none => .error .panic
        | none, _ => .error .stuck
      | _, _ => .error .stuck
def steps (P : Pack) (vars : Vars) : List St → Mem → Except Stop (Flow × Mem)
  | [], h => .ok (.next vars, h)
  | s :: ss, h => do
    let (r, h) ← step P vars s h
    match r with
      | .next vars => steps P vars ss h
      | .done g => pure (.done g, h)
/-- The cases of a `switch`. -/
def choose (P : Pack) (vars : Vars) (i : Int) : List (Nat × List St) → Mem → Except Stop (Flow × Mem)
  | [], h => .ok (.next vars, h)
  | (c, body) :: cs, h => if i = c then steps P vars body h else choose P vars i cs h
end

/-- A method is called: the result, if there is one, and memory. -/
def Method.run (P : Pack) (m : Method) (recv : Gv) (args : List Gv) (h : Mem) : Except Stop (Option Gv × Mem) := do
  let (r, h) ← steps P ((m.recv.1, recv) :: (m.params.map (·.1)).zip args) m.body h
  match r with
    | .next _ => pure (none, h)
    | .done g => pure (g, h)

end Verif.Spec.GoT
