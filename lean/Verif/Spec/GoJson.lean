import Verif.Gen.Json
import Verif.Spec.GoDefault
/-
The part of Go in which `MarshalJSON` and `UnmarshalJSON` of generated types are written: statements, their tokens, what
the compiler asks of their variables, and what they do.

`json.Marshal` and `json.Unmarshal` of a part of the value are parameters. Texts are represented by the JSON value that they
denote. What a method has done to its receiver before it returns an error is not part of the model.
-/
namespace Verif.Spec.GoJ
open Verif Spec Spec.Go

/-! ### Syntax -/

/-- The statements of `func (r T) MarshalJSON() ([]byte, error)`. -/
inductive MSt where
  /-- `var err error` -/
  | varErr
  /-- `output := make(map[string]json.RawMessage)` -/
  | makeOutput
  /-- `output["k"], err = json.Marshal(r.f)` -/
  | put (k : List Byte) (f : Str)
  /-- `if err != nil { return nil, err }` -/
  | check
  /-- `return json.Marshal(output)` -/
  | retOutput
  /-- `if r == nil { return []byte("null"), nil }` -/
  | ifNil
  /-- `switch r.UnionType { case c: return json.Marshal(map[string]interface{}{"k": r.f}) … }` -/
  | switch (cases : List (Str × List Byte × Str))
  /-- `return nil, fmt.Errorf("…")` -/
  | fail (msg : List Byte)
  /-- `return json.Marshal(b.String())` -/
  | retString
  /-- `return []byte(util.EncodeByteString(b)), nil`, or of `b[:]` -/
  | retBytes (slice : Bool)

/-- What is done about a field that the text does not have: a default is set, or `return fmt.Errorf("…")`. -/
inductive Else where
  | sets (l : List Spec.GoD.St)
  | fail (msg : List Byte)

/-- The statements of `func (r *T) UnmarshalJSON(data []byte) (error)`. -/
inductive USt where
  /-- `var fields map[string]json.RawMessage` -/
  | varFields
  /-- `if err := json.Unmarshal(data, &fields); err != nil { return err }` -/
  | readFields
  /-- `var val json.RawMessage` -/
  | varVal
  /-- `val = func() json.RawMessage { if v, ok := fields["k"]; ok { return v } … return nil }()` -/
  | find (ks : List (List Byte))
  /-- `if val != nil { if err := json.Unmarshal([]byte(val), &r.f); err != nil { return err } } else { … }` -/
  | field (f : Str) (other : Else)
  /-- `if len(fields) > 1 { return fmt.Errorf("…") }` -/
  | single (msg : List Byte)
  /-- `if value, ok := fields["k"]; ok { r.UnionType = i; return json.Unmarshal([]byte(value), &r.f) }` -/
  | member (k : List Byte) (i : Nat) (f : Str)
  /-- `return fmt.Errorf("…")` -/
  | fail (msg : List Byte)
  /-- `return nil` -/
  | retNil
  /-- `var x string` -/
  | varString (x : Str)
  /-- `if err := json.Unmarshal(data, &x); err != nil { return err }` -/
  | readString (x : Str)
  /-- `err := json.Unmarshal(data, &x)` -/
  | defErr (x : Str)
  /-- `if err != nil { return err }` -/
  | check
  /-- `val, err := f(x)` -/
  | call (f x : Str)
  /-- `*b = val` -/
  | setVal
  /-- `return err` -/
  | retErr
  /-- `*b = util.DecodeByteString(x)` -/
  | setBytes (x : Str)
  /-- `codepoints := util.DecodeByteString(x)` -/
  | defPoints (x : Str)
  /-- `copy((*b)[:], codepoints)` -/
  | copyPoints

/-! ### Tokens -/

def rawMap : List Tok := [w "map", .sign '[', w "string", .sign ']', w "json", .sign '.', w "RawMessage"]

def errorfToks (msg : List Byte) : List Tok := [w "fmt", .sign '.', w "Errorf", .sign '(', .text msg, .sign ')', .sign ';']

/-- `case c: return json.Marshal(map[string]interface{}{"k": r.f})` -/
def mcaseToks (c : Str × List Byte × Str) : List Tok :=
  [w "case", .word c.1, .sign ':', w "return", w "json", .sign '.', w "Marshal", .sign '(', w "map", .sign '[', w "string", .sign ']', w "interface",
    .sign '{', .sign '}', .sign '{', .text c.2.1, .sign ':', w "r", .sign '.', .word c.2.2, .sign '}', .sign ')', .sign ';']

def MSt.toks : MSt → List Tok
  | .varErr => [w "var", w "err", w "error", .sign ';']
  | .makeOutput => w "output" :: .sign ':' :: .sign '=' :: w "make" :: .sign '(' :: (rawMap ++ [.sign ')', .sign ';'])
  | .put k f => [w "output", .sign '[', .text k, .sign ']', .sign ',', w "err", .sign '=', w "json", .sign '.', w "Marshal", .sign '(', w "r", .sign '.', .word f,
      .sign ')', .sign ';']
  | .check => [w "if", w "err", .sign '!', .sign '=', w "nil", .sign '{', w "return", w "nil", .sign ',', w "err", .sign ';', .sign '}', .sign ';']
  | .retOutput => [w "return", w "json", .sign '.', w "Marshal", .sign '(', w "output", .sign ')', .sign ';']
  | .ifNil => [w "if", w "r", .sign '=', .sign '=', w "nil", .sign '{', w "return", .sign '[', .sign ']', w "byte", .sign '(', .text (bytesOf "null".toList), .sign ')',
      .sign ',', w "nil", .sign ';', .sign '}', .sign ';']
  | .switch cases => [w "switch", w "r", .sign '.', w "UnionType", .sign '{'] ++ (cases.flatMap mcaseToks ++ [.sign '}', .sign ';'])
  | .fail msg => w "return" :: w "nil" :: .sign ',' :: errorfToks msg
  | .retString => [w "return", w "json", .sign '.', w "Marshal", .sign '(', w "b", .sign '.', w "String", .sign '(', .sign ')', .sign ')', .sign ';']
  | .retBytes slice => [w "return", .sign '[', .sign ']', w "byte", .sign '(', w "util", .sign '.', w "EncodeByteString", .sign '(', w "b"] ++
      ((if slice then [.sign '[', .sign ':', .sign ']'] else []) ++ [.sign ')', .sign ')', .sign ',', w "nil", .sign ';'])

/-- `if v, ok := fields["k"]; ok { return v }` -/
def findToks (k : List Byte) : List Tok :=
  [w "if", w "v", .sign ',', w "ok", .sign ':', .sign '=', w "fields", .sign '[', .text k, .sign ']', .sign ';', w "ok", .sign '{', w "return", w "v", .sign ';',
    .sign '}', .sign ';']

def Else.toks : Else → List Tok
  | .sets l => Spec.GoD.stsToks l
  | .fail msg => w "return" :: errorfToks msg

/-- `if err := json.Unmarshal(data, &x); err != nil { return err }` -/
def readToks (x : Str) : List Tok :=
  [w "if", w "err", .sign ':', .sign '=', w "json", .sign '.', w "Unmarshal", .sign '(', w "data", .sign ',', .sign '&', .word x, .sign ')', .sign ';',
    w "err", .sign '!', .sign '=', w "nil", .sign '{', w "return", w "err", .sign ';', .sign '}', .sign ';']

def USt.toks : USt → List Tok
  | .varFields => w "var" :: w "fields" :: (rawMap ++ [.sign ';'])
  | .readFields => readToks "fields".toList
  | .varVal => [w "var", w "val", w "json", .sign '.', w "RawMessage", .sign ';']
  | .find ks => [w "val", .sign '=', w "func", .sign '(', .sign ')', w "json", .sign '.', w "RawMessage", .sign '{'] ++ (ks.flatMap findToks ++
      [w "return", w "nil", .sign ';', .sign '}', .sign '(', .sign ')', .sign ';'])
  | .field f other => [w "if", w "val", .sign '!', .sign '=', w "nil", .sign '{', w "if", w "err", .sign ':', .sign '=', w "json", .sign '.', w "Unmarshal", .sign '(',
      .sign '[', .sign ']', w "byte", .sign '(', w "val", .sign ')', .sign ',', .sign '&', w "r", .sign '.', .word f, .sign ')', .sign ';',
      w "err", .sign '!', .sign '=', w "nil", .sign '{', w "return", w "err", .sign ';', .sign '}', .sign ';', .sign '}', w "else", .sign '{'] ++
      (other.toks ++ [.sign '}', .sign ';'])
  | .single msg => [w "if", w "len", .sign '(', w "fields", .sign ')', .sign '>', w "1", .sign '{', w "return"] ++ (errorfToks msg ++ [.sign '}', .sign ';'])
  | .member k i f => [w "if", w "value", .sign ',', w "ok", .sign ':', .sign '=', w "fields", .sign '[', .text k, .sign ']', .sign ';', w "ok", .sign '{',
      w "r", .sign '.', w "UnionType", .sign '=', number i, .sign ';', w "return", w "json", .sign '.', w "Unmarshal", .sign '(', .sign '[', .sign ']', w "byte",
      .sign '(', w "value", .sign ')', .sign ',', .sign '&', w "r", .sign '.', .word f, .sign ')', .sign ';', .sign '}', .sign ';']
  | .fail msg => w "return" :: errorfToks msg
  | .retNil => [w "return", w "nil", .sign ';']
  | .varString x => [w "var", .word x, w "string", .sign ';']
  | .readString x => readToks x
  | .defErr x => [w "err", .sign ':', .sign '=', w "json", .sign '.', w "Unmarshal", .sign '(', w "data", .sign ',', .sign '&', .word x, .sign ')', .sign ';']
  | .check => [w "if", w "err", .sign '!', .sign '=', w "nil", .sign '{', w "return", w "err", .sign ';', .sign '}', .sign ';']
  | .call f x => [w "val", .sign ',', w "err", .sign ':', .sign '=', .word f, .sign '(', .word x, .sign ')', .sign ';']
  | .setVal => [.sign '*', w "b", .sign '=', w "val", .sign ';']
  | .retErr => [w "return", w "err", .sign ';']
  | .setBytes x => [.sign '*', w "b", .sign '=', w "util", .sign '.', w "DecodeByteString", .sign '(', .word x, .sign ')', .sign ';']
  | .defPoints x => [w "codepoints", .sign ':', .sign '=', w "util", .sign '.', w "DecodeByteString", .sign '(', .word x, .sign ')', .sign ';']
  | .copyPoints => [w "copy", .sign '(', .sign '(', .sign '*', w "b", .sign ')', .sign '[', .sign ':', .sign ']', .sign ',', w "codepoints", .sign ')', .sign ';']

/-- `func (x T) MarshalJSON() ([]byte, error) { … }` -/
def marshalToks (x : Str) (recv : GoTy) (body : List MSt) : List Tok :=
  w "func" :: .sign '(' :: .word x :: (recv.toks ++ [.sign ')', w "MarshalJSON", .sign '(', .sign ')', .sign '(', .sign '[', .sign ']', w "byte", .sign ',', w "error",
    .sign ')', .sign '{'] ++ (body.flatMap MSt.toks ++ [.sign '}', .sign ';']))

/-- `func (x *T) UnmarshalJSON(data []byte) (error) { … }` -/
def unmarshalToks (x : Str) (recv : GoTy) (body : List USt) : List Tok :=
  w "func" :: .sign '(' :: .word x :: (recv.toks ++ [.sign ')', w "UnmarshalJSON", .sign '(', w "data", .sign '[', .sign ']', w "byte", .sign ')', .sign '(', w "error",
    .sign ')', .sign '{'] ++ (body.flatMap USt.toks ++ [.sign '}', .sign ';']))

/-! ### Variables

The compiler refuses a function that has a variable twice in a block, or one that is not declared, or one that is declared and not used
(assigning to it is no use), or one that can end without a return. -/

/-- The variables of the methods, besides the receiver and the parameter. -/
inductive Var where
  | err
  | output
  | fields
  | val
  | points
  /-- a string -/
  | text (x : Str)
  deriving DecidableEq

/-- What a statement has to do with the variables of the function. -/
structure Vars where
  declares : List Var := []
  /-- uses it -/
  uses : List Var := []
  /-- assigns to it -/
  assigns : List Var := []

/-- The variables in scope are given. -/
def inScope : List Var → List Vars → Bool
  | _, [] => true
  | sc, s :: l => (s.uses ++ s.assigns).all (fun x => sc.contains x) && s.declares.all (fun x => !sc.contains x && l.any fun s' => s'.uses.contains x) &&
      inScope (s.declares ++ sc) l

def MSt.vars : MSt → Vars
  | .varErr => { declares := [.err] }
  | .makeOutput => { declares := [.output] }
  | .put _ _ => { uses := [.output], assigns := [.err] }
  | .check => { uses := [.err] }
  | .retOutput => { uses := [.output] }
  | _ => {}

def USt.vars : USt → Vars
  | .varFields => { declares := [.fields] }
  | .readFields => { uses := [.fields] }
  | .varVal => { declares := [.val] }
  | .find ks => { uses := if ks.isEmpty then [] else [.fields], assigns := [.val] }
  | .field _ _ => { uses := [.val] }
  | .single _ => { uses := [.fields] }
  | .member _ _ _ => { uses := [.fields] }
  | .varString x => { declares := [.text x] }
  | .readString x => { uses := [.text x] }
  | .defErr x => { declares := [.err], uses := [.text x] }
  | .check => { uses := [.err] }
  -- `err` is there already: `:=` assigns to it
  | .call _ x => { declares := [.val], uses := [.text x], assigns := [.err] }
  | .setVal => { uses := [.val] }
  | .retErr => { uses := [.err] }
  | .setBytes x => { uses := [.text x] }
  | .defPoints x => { declares := [.points], uses := [.text x] }
  | .copyPoints => { uses := [.points] }
  | _ => {}

def MSt.returns : MSt → Bool
  | .retOutput | .fail _ | .retString | .retBytes _ => true
  | _ => false

def USt.returns : USt → Bool
  | .fail _ | .retNil | .retErr => true
  | _ => false

/-- The compiler has no objection as far as variables and returns go. -/
def MAccepted (body : List MSt) : Prop := inScope [] (body.map MSt.vars) = true ∧ ∃ s, body.getLast? = some s ∧ s.returns = true
def UAccepted (body : List USt) : Prop := inScope [] (body.map USt.vars) = true ∧ ∃ s, body.getLast? = some s ∧ s.returns = true

/-! ### Meaning -/

variable (P : Spec.GoD.Package)

/-- The functions of an enum that its methods call: the cases of `String` and of `NewXValue`, and what that does with other strings. -/
structure EnumFuncs where
  strings : List (Str × List Byte)
  values : List (List Byte × Str)
  /-- the constant that is returned for other strings; if there is none it is an error -/
  other : Option Str

/-- The part `r.f` of a value: its type, its value, and the value with another part in its place. The members of a union that are not selected are
not part of the value; they are taken to be zero. -/
def part (t : PTy) (r : Val) (f : Str) : Option (PTy × Val × (Val → Val)) :=
  match t with
  | .ref q => match P.n.find q with
    | none => none
    | some d => match d.kind with
      | .record fs _ => match Spec.GoD.named f 0 (fs.map fun f => (fieldGoName P.nm f.name, f.ty)), r with
        | some (i, ty), .record vs => (vs[i]?).map fun v => (ty, v, fun x => .record (vs.set i x))
        | _, _ => none
      | _ => none
  | .union _ ts _ => match Spec.GoD.named f 0 (ts.map fun t => (t.goName P.nm P.n, t)), r with
    | some (i, ty), .union tag x =>
      if tag = BitVec.ofNat 64 i then some (ty, x.getD (Spec.GoD.zero P ty), fun y => .union tag (some y)) else some (ty, Spec.GoD.zero P ty, fun _ => r)
    | _, _ => none
  | _ => none

/-- The constants of a union (templates/union.go:16-22): the position of the member with the name. -/
def unionConst (t : PTy) (c : Str) : Option Nat := match t with
  | .union _ ts _ => (Spec.GoD.named c 0 (ts.map fun u => (unionEnumType (t.goName P.nm P.n) ++ u.goName P.nm P.n, ()))).map Prod.fst
  | _ => none

/-- The constants of an enum. -/
def enumConst (t : PTy) (c : Str) : Option (BitVec 32) := match t with
  | .ref q => match P.n.find q with
    | none => none
    | some d => match d.kind with
      | .enum syms _ _ => Spec.GoD.constant P syms (d.goName P.nm) c
      | _ => none
  | _ => none

/-- `json.Marshal` of a string, given by its bytes. -/
def marshalString (bs : List Byte) : JTree := .str (fromUtf8 bs)

/-- `String()`: `switch e { case c: return "…" … }; return "unknown"`. -/
def stringOf (t : PTy) (v : BitVec 32) : List (Str × List Byte) → List Byte
  | [] => bytesOf "unknown".toList
  | (c, s) :: l => if enumConst P t c = some v then s else stringOf t v l

/-- `NewXValue(raw)`: `switch raw { case "…": return c, nil … }; return c, nil` or `return -1, fmt.Errorf("…", raw)`. -/
def valueOf (t : PTy) (other : Option Str) (raw : List Byte) : List (List Byte × Str) → JRes Val
  | [] => match other with
    | none => .error .refused
    | some c => ofMade ((orBuild (enumConst P t c)).map .enum)
  | (s, c) :: l => if s = raw then ofMade ((orBuild (enumConst P t c)).map .enum) else valueOf t other raw l

/-- `json.Marshal` of a value of a type; `json.Unmarshal` of a text into a variable of a type that holds a value. -/
abbrev Marshal := Val → PTy → JRes JTree
abbrev Unmarshal := JTree → PTy → Val → JRes Val

/-- The variables of `MarshalJSON`. -/
structure MState where
  err : Option JErr := none
  output : List (List Byte × JTree) := []

/-- The first case with the value of the switch. -/
def mswitch (M : Marshal) (t : PTy) (r : Val) (tag : BitVec 64) : List (Str × List Byte × Str) → Option (JRes JTree)
  | [] => none
  | (c, k, f) :: l => match unionConst P t c with
    | none => some (.error .untyped)
    | some i =>
      if tag = BitVec.ofNat 64 i then match part P t r f with
        | none => some (.error .untyped)
        | some p => some ((M p.2.1 p.1).map fun j => .obj [(fromUtf8 k, j)])
      else mswitch M t r tag l

/-- One statement: the variables after it, or what is returned. -/
def mstep (M : Marshal) (E : EnumFuncs) (t : PTy) (r : Val) (st : MState) : MSt → Sum MState (JRes JTree)
  | .varErr => .inl { st with err := none }
  | .makeOutput => .inl { st with output := [] }
  | .put k f => match part P t r f with
    | none => .inr (.error .untyped)
    | some p => match M p.2.1 p.1 with
      | .ok j => .inl { err := none, output := mapInsert k j st.output }
      -- the entry is a nil RawMessage
      | .error e => .inl { err := some e, output := mapInsert k .null st.output }
  | .check => match st.err with
    | none => .inl st
    | some e => .inr (.error e)
  | .retOutput => .inr (.ok (rawObject st.output))
  | .ifNil => match r with
    | .nil => .inr (.ok .null)
    | _ => .inl st
  | .switch cases => match r with
    | .union tag _ => match mswitch P M t r tag cases with
      | none => .inl st
      | some x => .inr x
    | _ => .inr (.error .untyped)
  | .fail _ => .inr (.error .refused)
  | .retString => match r with
    | .enum v => .inr (.ok (marshalString (stringOf P t v E.strings)))
    | _ => .inr (.error .untyped)
  -- v10/util/bytes.go:10-18
  | .retBytes _ => match r with
    | .bytes bs => .inr (.ok (.str (byteChars bs)))
    | .fixed bs => .inr (.ok (.str (byteChars bs)))
    | _ => .inr (.error .untyped)

/-- `MarshalJSON` with this body, on a receiver of type `t` with value `r`. -/
def mrun (M : Marshal) (E : EnumFuncs) (t : PTy) (r : Val) : MState → List MSt → JRes JTree
  | _, [] => .error .untyped
  | st, s :: l => match mstep P M E t r st s with
    | .inl st => mrun M E t r st l
    | .inr x => x

/-- The variables of `UnmarshalJSON`, and the value that the receiver points to. -/
structure UState where
  r : Val
  fields : List (Str × JTree) := []
  val : Option JTree := none
  text : Str := []
  err : Option JErr := none
  const : Val := .nil
  points : List Byte := []

/-- `fields["k"]`: of several entries of the text with one key the last stays. -/
def entry : List (Str × JTree) → List Byte → Option JTree
  | [], _ => none
  | (k', j) :: l, k => match entry l k with
    | some j => some j
    | none => if utf8 k' = k then some j else none

/-- The first of the keys that has an entry. -/
def firstEntry (fields : List (Str × JTree)) : List (List Byte) → Option JTree
  | [] => none
  | k :: ks => match entry fields k with
    | some j => some j
    | none => firstEntry fields ks

/-- `json.Unmarshal(data, &fields)`; null leaves a map nil. -/
def readMap : JTree → JRes (List (Str × JTree))
  | .obj kvs => .ok kvs
  | .null => .ok []
  | _ => .error .refused

/-- `json.Unmarshal(data, &s)`; null leaves a string as it is. -/
def readText (old : Str) : JTree → JRes Str
  | .str s => .ok s
  | .null => .ok old
  | _ => .error .refused

/-- `r.UnionType = i`. -/
def select (i : Nat) : Val → Val
  | .union tag x => .union (BitVec.ofNat 64 i) (if tag.toNat = i then x else none)
  | v => v

/-- `json.Unmarshal([]byte(v), &r.f)`. -/
def into (U : Unmarshal) (t : PTy) (r : Val) (f : Str) (j : JTree) : JRes Val := match part P t r f with
  | none => .error .untyped
  | some p => (U j p.1 p.2.1).map p.2.2

/-- One statement: the variables after it, or the error that is returned (`none`: nil), with them. `new` are the constructors of the package. -/
def ustep (U : Unmarshal) (new : PTy → Made Val) (E : EnumFuncs) (t : PTy) (data : JTree) (st : UState) : USt → Sum UState (JRes Val)
  | .varFields => .inl { st with fields := [] }
  | .readFields => match readMap data with
    | .ok l => .inl { st with fields := l }
    | .error e => .inr (.error e)
  | .varVal => .inl { st with val := none }
  | .find ks => .inl { st with val := firstEntry st.fields ks }
  | .field f other => match st.val with
    | some j => match into P U t st.r f j with
      | .ok r => .inl { st with r := r }
      | .error e => .inr (.error e)
    | none => match other with
      | .sets l => match ofMade (Spec.GoD.run P new l t true (some st.r) >>= present) with
        | .ok r => .inl { st with r := r }
        | .error e => .inr (.error e)
      | .fail _ => .inr (.error .refused)
  | .single _ => if 1 < (st.fields.map Prod.fst).eraseDups.length then .inr (.error .refused) else .inl st
  | .member k i f => match entry st.fields k with
    | some j => .inr (into P U t (select i st.r) f j)
    | none => .inl st
  | .fail _ => .inr (.error .refused)
  | .retNil => .inr (.ok st.r)
  | .varString _ => .inl { st with text := [] }
  | .readString _ => match readText st.text data with
    | .ok s => .inl { st with text := s }
    | .error e => .inr (.error e)
  | .defErr _ => match readText st.text data with
    | .ok s => .inl { st with text := s, err := none }
    | .error e => .inl { st with err := some e }
  | .check => match st.err with
    | none => .inl st
    | some e => .inr (.error e)
  | .call _ _ => match valueOf P t E.other (utf8 st.text) E.values with
    | .ok v => .inl { st with const := v, err := none }
    | .error e => .inl { st with const := .enum (BitVec.ofInt 32 (-1)), err := some e }
  | .setVal => .inl { st with r := st.const }
  | .retErr => match st.err with
    | none => .inr (.ok st.r)
    | some e => .inr (.error e)
  | .setBytes _ => .inl { st with r := .bytes (decodeByteString st.text) }
  | .defPoints _ => .inl { st with points := decodeByteString st.text }
  | .copyPoints => match st.r with
    | .fixed old => .inl { st with r := .fixed (copyOver old st.points) }
    | _ => .inr (.error .untyped)

/-- `UnmarshalJSON` with this body. -/
def urun (U : Unmarshal) (new : PTy → Made Val) (E : EnumFuncs) (t : PTy) (data : JTree) : UState → List USt → JRes Val
  | _, [] => .error .untyped
  | st, s :: l => match ustep P U new E t data st s with
    | .inl st => urun U new E t data st l
    | .inr x => x

/-- The struct that a variable of a type holds: a value that the model does not spell out is that of a new variable. -/
def struct (t : PTy) (v : Val) : Val := match t with
  | .ref q => match P.n.find q with
    | none => v
    | some d => match d.kind with
      | .record fs _ => match v with
        | .record vs => .record vs
        | _ => .record (fs.map fun f => Spec.GoD.zero P f.ty)
      | .fixed k => match v with
        | .fixed bs => .fixed bs
        | _ => .fixed (List.replicate k.toNat 0)
      | _ => v
  | .union _ _ _ => match v with
    | .union tag x => .union tag x
    | _ => .union 0 none
  | _ => v

end Verif.Spec.GoJ
