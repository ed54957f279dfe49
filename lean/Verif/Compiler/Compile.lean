import Verif.VM.Eval
import Verif.Schema.Readable
/-
The compiler: v10/compiler/{compile,method,program,instruction,option}.go.
-/
namespace Verif

/-- Key of `irProgram.methods`: the Go strings "record-r-<name>" (`false`) and
"record-rw-<name>" (`true`), v10/compiler/method.go:171,176. -/
abbrev MKey := Bool × Str

/-- `irInstruction`, v10/compiler/instruction.go. `again` of `switchCase` is ghost: it
marks a case that the very next instruction repeats (method.go:350,354). The field
`readerIndex` of switch cases (instruction.go:119,126,131) has no effect and is left
out. -/
inductive IR where
  | lit (i : Instr)
  | call (k : MKey)
  | blockStart (id : Nat)
  | blockEnd (id : Nat)
  | switchStart (id size : Nat) (errId : Nat)
  | switchCase (id w : Nat) (again : Bool)
  | switchEnd (id : Nat)
  deriving DecidableEq

/-- Errors returned by `Compile`. -/
inductive CErr where
  /-- "Incompatible types", method.go:91,100,105,110,174,192,201 -/
  | incompatible
  /-- "Incompatible types by name", method.go:164 -/
  | names
  /-- "field %v in reader has incompatible type in writer", method.go:267 -/
  | fieldType (f : Str)
  /-- "field %v in reader is not present in writer and has no default value", method.go:284 -/
  | noDefault (f : Str)
  /-- "Reader schema has invalid default symbol", method.go:307 -/
  | enumDefault
  /-- "Unsupported type", method.go:158,207; here: an unresolved reference -/
  | unsupported
  /-- "Unable to call unknown method", instruction.go:37 -/
  | unknownMethod
  /-- not a Go error: the recursion did not end within the fuel -/
  | fuel
  deriving DecidableEq

/-- Ghost description of a method: the names of the writer's record and of the
reader's, if there is one. -/
abbrev Pair := QName × Option QName

/-- `irProgram` while it is being filled, v10/compiler/program.go:14-21.

* `started`: keys of `methods` in creation order, with the ghost `Pair`;
* `bodies`: the methods whose body is finished. Go keeps one map for both;
* `blocks`: `len(blocks)`; `switches`: one entry per element of `switches`, the ghost
  number of cases announced;
* `collision` (ghost): a method was reused for another pair of records;
* `nullNarrow` (ghost): a switch case was left out by method.go:392-393. -/
structure CState where
  started : List (MKey × Pair) := []
  bodies : List (MKey × List IR) := []
  blocks : Nat := 0
  switches : List Nat := []
  errors : List Msg := []
  collision : Bool := false
  nullNarrow : Bool := false

/-- Result of a compile step: the instructions appended to the current body, and the
new state of the program. -/
abbrev CRes := Except CErr (List IR × CState)

/-- `addLiteral`, v10/compiler/method.go:25-27. -/
def lit (op : Op) (arg : Int) : IR := .lit ⟨op, arg⟩

/-- `addError`, v10/compiler/method.go:59-63: the new state; the id is the new length. -/
def CState.addError (st : CState) (m : Msg) : CState := { st with errors := st.errors ++ [m] }

/-- `addBlockStart`, v10/compiler/method.go:33-38: the new state; the id is `st.blocks`. -/
def CState.addBlock (st : CState) : CState := { st with blocks := st.blocks + 1 }

/-- `addSwitchStart`, v10/compiler/method.go:44-49: the new state; the id is the old
number of switches. -/
def CState.addSwitch (st : CState) (size : Nat) : CState :=
  { st with switches := st.switches ++ [size] }

/-- Append `post` to, and put `pre` before, what a step emitted. -/
def wrapIR (pre post : List IR) : CRes → CRes
  | .error e => .error e
  | .ok (irs, st) => .ok (pre ++ irs ++ post, st)

/-- Run the first step, then the second. -/
def seqIR (a : CRes) (b : CState → CRes) : CRes :=
  match a with
  | .error e => .error e
  | .ok (irs, st) => wrapIR irs [] (b st)

/-- First element of a list satisfying a test, with its index counted from `i`: the
loops at v10/compiler/method.go:78-90,347-366,368-386. -/
def findIdx (p : Ty → Bool) (i : Nat) : List Ty → Option (Nat × Ty)
  | [] => none
  | t :: ts => if p t then some (i, t) else findIdx p (i + 1) ts

/-- Is the type a union? -/
def Ty.isUnion : Ty → Bool
  | .union _ => true
  | _ => false

/-- Is the type null? -/
def Ty.isNull : Ty → Bool
  | .null => true
  | _ => false

/-- "SetLong i; Set Long; Enter i" ... "Exit": v10/compiler/method.go:80-87,355-362,
375-382. -/
def unionEnter (i : Nat) : List IR := [lit .setLong i, lit .set opLong, lit .enter i]

/-- "Read X" and, when there is a reader, "Set X": v10/compiler/method.go:113-154. -/
def compilePrim (x : Int) (r : Option Ty) : List IR :=
  lit .read x :: (if r.isSome then [lit .set x] else [])

/-- `compileMap` and `compileArray`, v10/compiler/method.go:210-247. `pre` is the key
read (213), `app` the append instruction (216,235); `inner` compiles the item. -/
def compileBlock (pre : List IR) (app : Op) (reader : Bool) (inner : CState → CRes) (st : CState) :
    CRes :=
  wrapIR (.blockStart st.blocks :: pre ++ (if reader then [lit app opUnused] else []))
    ((if reader then [lit .exit opUnused] else []) ++ [.blockEnd st.blocks])
    (inner st.addBlock)

/-- `compileFixed`, v10/compiler/method.go:321-328. -/
def compileFixed (size : Int) (reader : Bool) : List IR :=
  lit .read (11 + size) :: (if reader then [lit .set opBytes] else [])

/-- The cases of `compileEnum`, v10/compiler/method.go:298-315. -/
def compileSymbols (id : Nat) (rSyms : List Str) (rDflt : Str) :
    Nat → List Str → CState → CRes
  | _, [], st => .ok ([], st)
  | i, s :: ss, st =>
    match symbolIndex rSyms s with
    | some k =>
      wrapIR [.switchCase id i false, lit .setInt k, lit .set opInt] []
        (compileSymbols id rSyms rDflt (i + 1) ss st)
    | none =>
      if rDflt ≠ [] then
        match symbolIndex rSyms rDflt with
        | none => .error .enumDefault
        | some k =>
          wrapIR [.switchCase id i false, lit .setInt k, lit .set opInt] []
            (compileSymbols id rSyms rDflt (i + 1) ss st)
      else
        wrapIR [.switchCase id i false, lit .halt ((st.errors.length + 1 : Nat) : Int)] []
          (compileSymbols id rSyms rDflt (i + 1) ss (st.addError (.noSymbol s)))

/-- `compileEnum`, v10/compiler/method.go:292-319. -/
def compileEnum (wSyms : List Str) (reader : Option (List Str × Str)) (st : CState) : CRes :=
  match reader with
  | none => .ok ([lit .read opLong], st)
  | some (rSyms, rDflt) =>
    wrapIR [lit .read opLong, .switchStart st.switches.length wSyms.length (st.errors.length + 1)]
      [.switchEnd st.switches.length]
      (compileSymbols st.switches.length rSyms rDflt 0 wSyms
        ((st.addError .unexpectedEnum).addSwitch wSyms.length))

/-- What `compileUnion` emits for one writer member, v10/compiler/method.go:338-406.
`rec` is `compileType`. -/
def compileMember (we re : Env) (rec : CState → Ty → Option Ty → CRes) (id i : Nat) (t : Ty)
    (reader : Option Ty) (st : CState) : CRes :=
  match reader with
  | none => wrapIR [.switchCase id i false] [] (rec st t none)
  | some (.union rs) =>
    match findIdx (fun r => r.goName re == t.goName we) 0 rs with
    | some (j, r) =>
      if t.isNull then .ok ([.switchCase id i false, lit .setExitNull noopField], st)
      else wrapIR ([.switchCase id i true, .switchCase id i false] ++ unionEnter j)
        [lit .exit noopField] (rec st t (some r))
    | none =>
      match findIdx (t.readableBy we re) 0 rs with
      | some (j, r) =>
        if t.isNull then .ok ([.switchCase id i false, lit .setExitNull noopField], st)
        else wrapIR (.switchCase id i false :: unionEnter j) [lit .exit noopField] (rec st t (some r))
      | none =>
        .ok ([.switchCase id i false, lit .halt ((st.errors.length + 1 : Nat) : Int)],
          st.addError (.noUnionField (t.goName we)))
  | some r =>
    if t.readableBy we re r then
      if t.isNull then .ok ([lit .setExitNull noopField], { st with nullNarrow := true })
      else wrapIR [.switchCase id i false] [] (rec st t (some r))
    else
      .ok ([.switchCase id i false, lit .halt ((st.errors.length + 1 : Nat) : Int)],
        st.addError (.noUnionField (t.goName we)))

/-- The loop of `compileUnion`, v10/compiler/method.go:337-407. -/
def compileMembers (we re : Env) (rec : CState → Ty → Option Ty → CRes) (id : Nat)
    (reader : Option Ty) : Nat → List Ty → CState → CRes
  | _, [], st => .ok ([], st)
  | i, t :: ts, st =>
    seqIR (compileMember we re rec id i t reader st) (compileMembers we re rec id reader (i + 1) ts)

/-- `compileUnion`, v10/compiler/method.go:330-409. -/
def compileUnion (we re : Env) (rec : CState → Ty → Option Ty → CRes) (ts : List Ty)
    (reader : Option Ty) (st : CState) : CRes :=
  wrapIR [lit .read opLong, .switchStart st.switches.length ts.length (st.errors.length + 1)]
    [.switchEnd st.switches.length]
    (compileMembers we re rec st.switches.length reader 0 ts
      ((st.addError .unsupportedUnion).addSwitch ts.length))

/-- `defaultFields[field.Name()] = field`, v10/compiler/method.go:255: a later field
of the same name replaces the earlier. -/
def insertField (l : List (Nat × Field)) (x : Nat × Field) : List (Nat × Field) :=
  l.filter (fun y => y.2.name ≠ x.2.name) ++ [x]

/-- `defaultFields` before the writer's fields are looked at, method.go:252-257. -/
def tableFrom (l : List (Nat × Field)) (i : Nat) : List Field → List (Nat × Field)
  | [] => l
  | f :: fs => tableFrom (insertField l (i, f)) (i + 1) fs

/-- `delete(defaultFields, readerField.Name())` for the fields the writer has,
v10/compiler/method.go:262-265. -/
def dropMatched (rfs : List Field) (l : List (Nat × Field)) : List Field → List (Nat × Field)
  | [] => l
  | w :: ws => match fieldByName rfs w.name with
    | some (_, rf) => dropMatched rfs (l.filter (fun y => y.2.name ≠ rf.name)) ws
    | none => dropMatched rfs l ws

/-- `defaultFields` at v10/compiler/method.go:282: the reader fields the writer lacks. -/
def missingFields (wfs rfs : List Field) : List (Nat × Field) :=
  dropMatched rfs (tableFrom [] 0 rfs) wfs

/-- v10/compiler/method.go:282-287, for the fields in iteration order. -/
def compileDefaults : List (Nat × Field) → CState → CRes
  | [], st => .ok ([], st)
  | (i, f) :: fs, st =>
    if f.dflt.isNone then .error (.noDefault f.name)
    else wrapIR [lit .setDefault i] [] (compileDefaults fs st)

/-- v10/compiler/method.go:259-280. -/
def compileFields (we re : Env) (rec : CState → Ty → Option Ty → CRes) (reader : Option (List Field)) :
    List Field → CState → CRes
  | [], st => .ok ([], st)
  | w :: ws, st =>
    match reader.bind (fun rfs => fieldByName rfs w.name) with
    | none => seqIR (rec st w.ty none) (compileFields we re rec reader ws)
    | some (i, rf) =>
      if w.ty.readableBy we re rf.ty then
        seqIR (wrapIR [lit .enter i] [lit .exit noopField] (rec st w.ty (some rf.ty)))
          (compileFields we re rec reader ws)
      else .error (.fieldType w.name)

/-- The iteration orders of the three Go maps the compiler ranges over. `defaults` and
`cases` take an index that is different for every execution of the loop, so the order
can be different each time. -/
structure Orders where
  /-- `for _, field := range defaultFields`, method.go:282 -/
  defaults : Nat → List (Nat × Field) → List (Nat × Field)
  defaults_perm : ∀ k l, (defaults k l).Perm l
  /-- `for value, offset := range sw.cases`, instruction.go:103 -/
  cases : Nat → List (Nat × Nat) → List (Nat × Nat)
  cases_perm : ∀ k l, (cases k l).Perm l
  /-- `for _, method := range p.methods`, program.go:60 -/
  methods : List (MKey × List IR) → List (MKey × List IR)
  methods_perm : ∀ l, (methods l).Perm l

/-- Insertion order everywhere. -/
def Orders.id : Orders where
  defaults _ l := l
  defaults_perm _ l := .refl l
  cases _ l := l
  cases_perm _ l := .refl l
  methods l := l
  methods_perm l := .refl l

/-- `compileRecord`, v10/compiler/method.go:249-290. `k` distinguishes the executions. -/
def compileRecord (ord : Orders) (we re : Env) (rec : CState → Ty → Option Ty → CRes) (k : Nat)
    (wfs : List Field) (reader : Option (List Field)) (st : CState) : CRes :=
  seqIR (compileFields we re rec reader wfs st)
    (compileDefaults (match reader with
      | none => []
      | some rfs => ord.defaults k (missingFields wfs rfs)))

/-- Look up a method, `p.program.methods[recordMethodName]`, method.go:179. -/
def findMethod {α : Type} : List (MKey × α) → MKey → Option α
  | [], _ => none
  | (k', a) :: l, k => if k' = k then some a else findMethod l k

/-- v10/compiler/method.go:179-187: compile the record once, then call it. -/
def compileCall (ord : Orders) (we re : Env) (rec : CState → Ty → Option Ty → CRes) (key : MKey)
    (pair : Pair) (wfs : List Field) (reader : Option (List Field)) (st : CState) : CRes :=
  match findMethod st.started key with
  | some pair' =>
    .ok ([.call key], { st with collision := st.collision || decide (pair' ≠ pair) })
  | none =>
    match compileRecord ord we re rec st.started.length wfs reader
        { st with started := st.started ++ [(key, pair)] } with
    | .error e => .error e
    | .ok (body, st') => .ok ([.call key], { st' with bodies := st'.bodies ++ [(key, body)] })

/-- `compileRef` once the definitions are known, v10/compiler/method.go:167-207. -/
def compileDef (ord : Orders) (we re : Env) (rec : CState → Ty → Option Ty → CRes) (wd : Def)
    (rd : Option Def) (st : CState) : CRes :=
  match wd.kind, rd.map Def.kind with
  | .record wfs, none =>
    compileCall ord we re rec (false, wd.goName) (wd.name, none) wfs none st
  | .record wfs, some (.record rfs) =>
    compileCall ord we re rec (true, wd.goName) (wd.name, rd.map Def.name) wfs (some rfs) st
  | .fixed n, none => .ok (compileFixed n false, st)
  | .fixed n, some (.fixed _) => .ok (compileFixed n true, st)
  | .enum ss _, none => compileEnum ss none st
  | .enum ss _, some (.enum rss d) => compileEnum ss (some (rss, d)) st
  | _, _ => .error .incompatible

/-- `compileRef`, v10/compiler/method.go:161-208, for a reader that is a reference. -/
def compileRef (ord : Orders) (lax : Bool) (we re : Env) (rec : CState → Ty → Option Ty → CRes)
    (q : QName) (q' : Option QName) (st : CState) : CRes :=
  match we.find q with
  | none => .error .unsupported
  | some wd =>
    match q' with
    | none => compileDef ord we re rec wd none st
    | some q' =>
      match re.find q' with
      | none => .error .unsupported
      | some rd =>
        if lax || wd.readableBy rd then compileDef ord we re rec wd (some rd) st
        else .error .names

/-- The switch on the writer's type, v10/compiler/method.go:95-158. -/
def compileBody (ord : Orders) (lax : Bool) (we re : Env) (rec : CState → Ty → Option Ty → CRes)
    (w : Ty) (r : Option Ty) (st : CState) : CRes :=
  match w with
  | .null => .ok ([], st)
  | .bool => .ok (compilePrim opBoolean r, st)
  | .int => .ok (compilePrim opInt r, st)
  | .long => .ok (compilePrim opLong r, st)
  | .float => .ok (compilePrim opFloat r, st)
  | .double => .ok (compilePrim opDouble r, st)
  | .bytes => .ok (compilePrim opBytes r, st)
  | .string => .ok (compilePrim opString r, st)
  | .union ts => compileUnion we re rec ts r st
  | .array wi => match r with
    | none => compileBlock [] .appendArray false (fun st => rec st wi none) st
    | some (.array ri) => compileBlock [] .appendArray true (fun st => rec st wi (some ri)) st
    | _ => .error .incompatible
  | .map wi => match r with
    | none => compileBlock [lit .read opString] .appendMap false (fun st => rec st wi none) st
    | some (.map ri) =>
      compileBlock [lit .read opString] .appendMap true (fun st => rec st wi (some ri)) st
    | _ => .error .incompatible
  | .ref q => match r with
    | none => compileRef ord lax we re rec q none st
    | some (.ref q') => compileRef ord lax we re rec q (some q') st
    | _ => .error .incompatible

/-- `compileType`, v10/compiler/method.go:73-159. The first argument is fuel. -/
def compileType (ord : Orders) (lax : Bool) (we re : Env) : Nat → CState → Ty → Option Ty → CRes
  | 0, _, _, _ => .error .fuel
  | n + 1, st, w, r =>
    match w.isUnion, r with
    | false, some (.union rs) =>
      match findIdx (w.readableBy we re) 0 rs with
      | some (i, r') =>
        wrapIR (unionEnter i) [lit .exit noopField]
          (compileType ord lax we re n st w (some r'))
      | none => .error .incompatible
    | _, _ => compileBody ord lax we re (compileType ord lax we re n) w r st

/-- `VMLength`, v10/compiler/instruction.go:18,30,46,73,96,119,141. -/
def IR.len : IR → Nat
  | .lit _ => 1
  | .call _ => 1
  | .blockStart _ => 9
  | .blockEnd _ => 5
  | .switchStart _ size _ => 2 * size + 1
  | .switchCase _ _ _ => 1
  | .switchEnd _ => 0

/-- `irMethod.VMLength`, v10/compiler/method.go:65-71. -/
def irLen : List IR → Nat
  | [] => 0
  | i :: is => i.len + irLen is

/-- What `findOffsets` finds: `blocks[id].start/end`, `switches[id].cases/end`
(v10/compiler/program.go:23-36). Slices are functions of the index; entries not
written are zero, as after allocation. -/
structure Layout where
  bStart : Nat → Nat := fun _ => 0
  bEnd : Nat → Nat := fun _ => 0
  swEnd : Nat → Nat := fun _ => 0
  swCases : Nat → List (Nat × Nat) := fun _ => []

/-- Assignment to an entry of a slice. -/
def update {α : Type} (f : Nat → α) (i : Nat) (a : α) : Nat → α := fun j => if j = i then a else f j

/-- Assignment to an entry of a Go map. -/
def mapSet (l : List (Nat × Nat)) (k v : Nat) : List (Nat × Nat) :=
  if l.any (fun x => x.1 == k) then l.map (fun x => if x.1 = k then (k, v) else x) else l ++ [(k, v)]

/-- One step of `findOffsets`, v10/compiler/program.go:87-103. -/
def Layout.note (L : Layout) (off : Nat) : IR → Layout
  | .blockStart id => { L with bStart := update L.bStart id off }
  | .blockEnd id => { L with bEnd := update L.bEnd id off }
  | .switchCase id w _ => { L with swCases := update L.swCases id (mapSet (L.swCases id) w off) }
  | .switchEnd id => { L with swEnd := update L.swEnd id off }
  | _ => L

/-- `findOffsets`, v10/compiler/program.go:84-106. -/
def findOffsets (L : Layout) (off : Nat) : List IR → Layout
  | [] => L
  | i :: is => findOffsets (L.note off i) (off + i.len) is

/-- The dispatch of a switch, v10/compiler/instruction.go:101-106. -/
def dispatch : List (Nat × Nat) → List Instr
  | [] => []
  | (v, off) :: cs => ⟨.evalEqual, v⟩ :: ⟨.condJump, (off + 1 : Nat)⟩ :: dispatch cs

/-- `CompileToVM` of an instruction, v10/compiler/instruction.go:22-24,34-40,54-67,
79-88,100-110,126-135,145-147. `offs` are the offsets of the methods. -/
def IR.toVM (ord : Orders) (offs : List (MKey × Nat)) (L : Layout) : IR → Except CErr (List Instr)
  | .lit i => .ok [i]
  | .call k => match findMethod offs k with
    | some off => .ok [⟨.call, off⟩]
    | none => .error .unknownMethod
  | .blockStart id => .ok
    [⟨.read, opLong⟩, ⟨.evalEqual, 0⟩, ⟨.condJump, (L.bEnd id + 5 : Nat)⟩, ⟨.evalGreater, 0⟩,
     ⟨.condJump, (L.bStart id + 7 : Nat)⟩, ⟨.read, opUnusedLong⟩, ⟨.multLong, -1⟩,
     ⟨.hintSize, opUnusedLong⟩, ⟨.pushLoop, 0⟩]
  | .blockEnd id => .ok
    [⟨.popLoop, 0⟩, ⟨.addLong, -1⟩, ⟨.evalEqual, 0⟩, ⟨.condJump, (L.bStart id : Nat)⟩,
     ⟨.jump, (L.bStart id + 8 : Nat)⟩]
  | .switchStart id _ errId => .ok (dispatch (ord.cases id (L.swCases id)) ++ [⟨.halt, errId⟩])
  | .switchCase id _ _ => .ok [⟨.jump, (L.swEnd id : Nat)⟩]
  | .switchEnd _ => .ok []

/-- The loop at v10/compiler/program.go:71-77. -/
def toVM (ord : Orders) (offs : List (MKey × Nat)) (L : Layout) : List IR → Except CErr (List Instr)
  | [] => .ok []
  | i :: is => match i.toVM ord offs L, toVM ord offs L is with
    | .ok a, .ok b => .ok (a ++ b)
    | .error e, _ => .error e
    | _, .error e => .error e

/-- Offsets of the methods laid out one after the other, v10/compiler/program.go:60-65. -/
def methodOffsets (off : Nat) : List (MKey × List IR) → List (MKey × Nat)
  | [] => []
  | (k, body) :: ms => (k, off) :: methodOffsets (off + irLen body + 1) ms

/-- The bodies one after the other, each with its final return,
v10/compiler/program.go:60-65. -/
def concatMethods : List (MKey × List IR) → List IR
  | [] => []
  | (_, body) :: ms => body ++ [lit .ret noopField] ++ concatMethods ms

/-- `CompileToVM`, v10/compiler/program.go:52-82. -/
def linkProgram (ord : Orders) (main : List IR) (st : CState) : Except CErr Program :=
  let ms := ord.methods st.bodies
  let irs := main ++ [lit .halt 0] ++ concatMethods ms
  match toVM ord (methodOffsets (irLen main + 1) ms) (findOffsets {} 0 irs) irs with
  | .error e => .error e
  | .ok instrs => .ok ⟨instrs, st.errors⟩

/-- `Compile`, v10/compiler/compile.go:46-70, with `lax` for `AllowLaxNames`
(option.go:5-9). -/
def compileFuel (fuel : Nat) (ord : Orders) (lax : Bool) (w r : Schema) : Except CErr Program :=
  match compileType ord lax w.env r.env fuel {} w.root (some r.root) with
  | .error e => .error e
  | .ok (main, st) => linkProgram ord main st

end Verif
