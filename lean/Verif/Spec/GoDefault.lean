import Verif.Gen.Default
import Verif.Spec.GoTarget
import Verif.Gen.Methods
import Verif.Spec.GoNumber
/-
The part of Go in which generated code sets defaults: assignments to variables, fields, items of slices and entries of
maps, `copy` into an array, constructors. Syntax, tokens, and what the statements do.

A variable has a type of the schema and a value. The compiler's rules that matter here are part of the meaning of a
statement: a statement that it would refuse has the outcome `build`. One that panics has the outcome `panic`.
-/
namespace Verif.Spec.GoD
open Verif Spec Spec.Go

/-! ### Syntax -/

/-- From a variable to a part of it: `.f`, `[3]`, `["k"]`. -/
inductive Seg where
  | field (name : Str)
  | item (i : Nat)
  | entry (k : List Byte)

/-- What is assigned. -/
inductive Rhs where
  | bool (b : Bool)
  /-- a number, by its tokens -/
  | num (ts : List Tok)
  /-- `"…"` -/
  | text (bs : List Byte)
  /-- `[]byte("…")` -/
  | bytes (bs : List Byte)
  /-- the name of a constant -/
  | const (name : Str)
  | nil
  /-- `make(ty,k)` -/
  | sized (ty : GoTy) (k : Nat)
  /-- `make(ty, 0)`, `make(ty)` or `NewX()` -/
  | new (e : Spec.GoT.Ex)

/-- `l = e` and `copy(l[:], []byte("…"))`. -/
inductive St where
  | assign (l : List Seg) (e : Rhs)
  | copy (l : List Seg) (bs : List Byte)

/-! ### Tokens -/

def Seg.toks : Seg → List Tok
  | .field f => [.sign '.', .word f]
  | .item i => [.sign '[', number i, .sign ']']
  | .entry k => [.sign '[', .text k, .sign ']']

/-- The variable is called `r`. -/
def placeToks (l : List Seg) : List Tok := w "r" :: l.flatMap Seg.toks

def bytesToks (bs : List Byte) : List Tok := [.sign '[', .sign ']', w "byte", .sign '(', .text bs, .sign ')']

def Rhs.toks : Rhs → List Tok
  | .bool b => [if b then w "true" else w "false"]
  | .num ts => ts
  | .text bs => [.text bs]
  | .bytes bs => bytesToks bs
  | .const name => [.word name]
  | .nil => [w "nil"]
  | .sized ty k => w "make" :: .sign '(' :: (ty.toks ++ [.sign ',', number k, .sign ')'])
  | .new e => e.toks

def St.toks : St → List Tok
  | .assign l e => placeToks l ++ .sign '=' :: (e.toks ++ [.sign ';'])
  | .copy l bs => w "copy" :: .sign '(' :: (placeToks l ++ .sign '[' :: .sign ':' :: .sign ']' :: .sign ',' :: (bytesToks bs ++ [.sign ')', .sign ';']))

def stsToks (l : List St) : List Tok := l.flatMap St.toks

/-- `func NewX() (X) { r := X{}; …; return r }` -/
def constructorToks (name : Str) (body : List St) : List Tok :=
  [w "func", .word ("New".toList ++ name), .sign '(', .sign ')', .sign '(', .word name, .sign ')', .sign '{',
    w "r", .sign ':', .sign '=', .word name, .sign '{', .sign '}', .sign ';'] ++
  (stsToks body ++ [w "return", w "r", .sign ';', .sign '}', .sign ';'])

/-- `case 3: …; return` -/
def caseToks (c : Nat × List St) : List Tok :=
  w "case" :: number c.1 :: .sign ':' :: (stsToks c.2 ++ [w "return", .sign ';'])

/-- `func (r *X) SetDefault(i int) { switch (i) { case 0: …; return }; panic("Unknown field index") }` -/
def setDefaultToks (name : Str) (cases : List (Nat × List St)) : List Tok :=
  [w "func", .sign '(', w "r", .sign '*', .word name, .sign ')', w "SetDefault", .sign '(', w "i", w "int", .sign ')', .sign '{',
    w "switch", .sign '(', w "i", .sign ')', .sign '{'] ++
  (cases.flatMap caseToks ++ [.sign '}', .sign ';', w "panic", .sign '(', .text (bytesOf "Unknown field index".toList), .sign ')', .sign ';',
    .sign '}', .sign ';'])

/-- The word by which a constant is named can be one. -/
def St.Readable : St → Prop
  | .assign _ (.const name) => Exported name
  | _ => True

/-! ### Meaning -/

/-- What the statements are read in: names and definitions. -/
structure Package where
  nm : Namer
  n : NS

/-- The first with the name, and its position. -/
def named {α : Type} (name : Str) : Nat → List (Str × α) → Option (Nat × α)
  | _, [] => none
  | i, (x, a) :: l => if x = name then some (i, a) else named name (i + 1) l

variable (P : Package)

/-- The zero value of a type without parts. A variable of another type is set before it is read; only that it
is nil matters, if it is. -/
def zero : PTy → Val
  | .prim .null _ => .null
  | .prim .bool _ => .bool false
  | .prim .int _ => .int 0
  | .prim .long _ => .long 0
  | .prim .float _ => .float 0
  | .prim .double _ => .double 0
  | .prim .bytes _ => .bytes []
  | .prim .string _ => .string []
  | .ref q => match P.n.find q with
    | none => .nil
    | some d => match d.kind with
      | .fixed k => .fixed (List.replicate k.toNat 0)
      | .enum _ _ _ => .enum 0
      | .record _ _ => .nil
  | _ => .nil

/-- A change to a variable: of its type, whether it is addressable, and its value (`none`: an entry that a map does
not have) it makes the new value. -/
abbrev Change := PTy → Bool → Option Val → Made Val

/-- A change to a field of a struct. A struct in a map entry cannot be changed, but one that it points to can. -/
def changeField (name : Str) (f : Change) : Change := fun t addr cur =>
  match t with
  | .ref q => match P.n.find q with
    | none => .error .build
    | some d => match d.kind with
      | .record fs _ =>
        if addr then match named name 0 (fs.map fun f => (fieldGoName P.nm f.name, f.ty)) with
          | none => .error .build
          | some (i, ty) => match cur with
            | some (.record vs) => match vs[i]? with
              | none => .error .panic
              | some v => match f ty true (some v) with
                | .error e => .error e
                | .ok v => .ok (.record (vs.set i v))
            | _ => .error .panic
        else .error .build
      | _ => .error .build
  | .union _ ts _ =>
    if addr = false ∧ ts.any nullTy = false then .error .build
    else match named name 0 (ts.map fun t => (t.goName P.nm P.n, t)) with
      | none => .error .build
      | some (i, ty) => match cur with
        | some (.union tag x) =>
          -- the fields that are not selected are not part of the value
          if tag.toNat = i then match f ty true (some (x.getD (zero P ty))) with
            | .error e => .error e
            | .ok v => .ok (.union tag (some v))
          else .error .panic
        | _ => .error .panic
  | _ => .error .build

/-- A change to an item of a slice. -/
def changeItem (i : Nat) (f : Change) : Change := fun t _ cur =>
  match t with
  | .array it _ => match cur with
    | some (.array vs) => match vs[i]? with
      | none => .error .panic
      | some v => match f it true (some v) with
        | .error e => .error e
        | .ok v => .ok (.array (vs.set i v))
    | _ => .error .panic
  | _ => .error .build

/-- A change to an entry of a map. It panics if the map is nil. -/
def changeEntry (k : List Byte) (f : Change) : Change := fun t _ cur =>
  match t with
  | .map it _ => match cur with
    | some (.map m) => match f it false (mapGet m k) with
      | .error e => .error e
      | .ok v => .ok (.map (mapInsert k v m))
    | _ => match f it false none with
      | .error e => .error e
      | .ok _ => .error .panic
  | _ => .error .build

def change1 : Seg → Change → Change
  | .field name => changeField P name
  | .item i => changeItem i
  | .entry k => changeEntry k

/-- A change to the part of a variable that a place names. -/
def change : List Seg → Change → Change
  | [], f => f
  | s :: l, f => change1 P s (change l f)

/-- The constant of an enum with this name, among the symbols of its type (templates/enum.go). -/
def constant (syms : List Str) (type name : Str) : Option (BitVec 32) :=
  match (List.range syms.length).filter fun i => (syms[i]?).map (symbolGoName P.nm type) = some name with
  | [i] => some (BitVec.ofNat 32 i)
  | _ => none

/-! A number as a constant of a type, if the compiler accepts it (Go/Literal). -/

def asInt (x : Int × Nat) : Option Val := (constInt 32 x.1 x.2).map .int
def asLong (x : Int × Nat) : Option Val := (constInt 64 x.1 x.2).map .long
def asFloat (x : Int × Nat) : Option Val := (constFloat single x.1 x.2).map .float
def asDouble (x : Int × Nat) : Option Val := (constFloat double x.1 x.2).map .double

/-- The value that is assigned to a variable of the type. `new` says what the constructor of a type returns. -/
def value (new : PTy → Made Val) (e : Rhs) : Change := fun t _ _ =>
  match e, t with
  | .bool b, .prim .bool _ => .ok (.bool b)
  | .num ts, .prim .int _ => orBuild ((readNumber ts).bind asInt)
  | .num ts, .prim .long _ => orBuild ((readNumber ts).bind asLong)
  | .num ts, .prim .float _ => orBuild ((readNumber ts).bind asFloat)
  | .num ts, .prim .double _ => orBuild ((readNumber ts).bind asDouble)
  | .text bs, .prim .string _ => .ok (.string bs)
  | .bytes bs, .prim .bytes _ => .ok (.bytes bs)
  | .const name, .ref q => match P.n.find q with
    | none => .error .build
    | some d => match d.kind with
      | .enum syms _ _ => orBuild ((constant P syms (d.goName P.nm) name).map .enum)
      | _ => .error .build
  | .nil, .union _ ts _ => if ts.any nullTy then .ok .nil else .error .build
  | .sized ty k, .array it d => if ty = goTypeOf P.nm P.n (.array it d) then .ok (.array (List.replicate k (zero P it))) else .error .build
  | .new (.makeSlice ty), .array it d => if ty = goTypeOf P.nm P.n (.array it d) then .ok (.array []) else .error .build
  | .new (.makeMap ty), .map it d => if ty = goTypeOf P.nm P.n (.map it d) then .ok (.map []) else .error .build
  | .new (.call f), t => if f = newName (t.goName P.nm P.n) then new t else .error .build
  | _, _ => .error .build

/-- `copy(l[:], …)` into an array of bytes, which has to be addressable. -/
def copied (bs : List Byte) : Change := fun t addr cur =>
  match t with
  | .ref q => match P.n.find q with
    | none => .error .build
    | some d => match d.kind with
      | .fixed _ => match addr, cur with
        | true, some (.fixed old) => .ok (.fixed (copyOver old bs))
        | _, _ => .error .build
      | _ => .error .build
  | _ => .error .build

/-- One statement. -/
def step (new : PTy → Made Val) : St → Change
  | .assign l e => change P l (value P new e)
  | .copy l bs => change P l (copied P bs)

/-- Statements one after the other. -/
def run (new : PTy → Made Val) : List St → PTy → Bool → Option Val → Made (Option Val)
  | [], _, _, cur => .ok cur
  | s :: l, t, addr, cur => match step P new s t addr cur with
    | .error e => .error e
    | .ok v => run new l t addr (some v)

/-- The constructors of a package, of which `bodies` says what stands between `r := X{}` and `return r` in that of a
record: `NewX()` of a union (templates/union.go:53-61) returns the empty struct or a pointer to it. The number bounds the calls
that are open at one time. -/
def makes (bodies : QName → List St) : Nat → PTy → Made Val
  | 0, _ => .error .deep
  | m + 1, t => match t with
    | .union _ _ _ => .ok (.union 0 none)
    | .ref q => match P.n.find q with
      | none => .error .build
      | some d => match d.kind with
        | .record fs _ => run P (makes bodies m) (bodies q) t true (some (.record (fs.map fun f => zero P f.ty))) >>= present
        | _ => .error .build
    | _ => .error .build

/-- `SetDefault(i)` with these cases, on a variable of a record type. -/
def setDefault (new : PTy → Made Val) (cases : List (Nat × List St)) (i : Nat) (t : PTy) (v : Val) : Made (Option Val) :=
  match cases.find? fun c => decide (c.1 = i) with
  | none => .error .panic
  | some c => run P new c.2 t true (some v)

end Verif.Spec.GoD
