import Verif.Compiler.Compile
/-
A structured reading of what a compiled program does, without jumps: an interpreter
that follows the writer's and the reader's types. It is not a model of code in /repo;
it stands between the compiled programs (`Verif.Compiler.Correct` shows that the
virtual machine running a compiled program does what `interp` does) and the
specifications.
-/
namespace Verif
variable {R T : Type}

/-- Effect of a piece of program on the reader and the current target. The Boolean
says whether the piece asks for the target to be nulled on exit. -/
abbrev Sem (R T : Type) := R → T → Out (Bool × R × T)

def Sem.skip : Sem R T := fun r t => .done (false, r, t)
def Sem.fail (e : Err) : Sem R T := fun _ _ => .err e
/-- The flag of `SetExitNull`. -/
def Sem.nullExit : Sem R T := fun r t => .done (true, r, t)
def Sem.seq (a b : Sem R T) : Sem R T := fun r t =>
  match a r t with
  | .timeout => .timeout
  | .err e => .err e
  | .done (f, r', t') => match b r' t' with
    | .timeout => .timeout
    | .err e => .err e
    | .done (f', r'', t'') => .done (f || f', r'', t'')

/-- Forget the flag. -/
def Sem.noFlag (a : Sem R T) : Sem R T := fun r t =>
  match a r t with
  | .timeout => .timeout
  | .err e => .err e
  | .done (_, r', t') => .done (false, r', t')

/-- Act on the target. -/
def Sem.act (f : T → Except Err T) : Sem R T := fun r t =>
  match f t with
  | .error e => .err e
  | .ok t' => .done (false, r, t')

/-- Read a value and continue with it. -/
def Sem.read {α : Type} (rd : R → Except Err (α × R)) (k : α → Sem R T) : Sem R T := fun r t =>
  match rd r with
  | .error e => .err e
  | .ok (a, r') => k a r' t

/-- Run a piece on a sub-target, finalize it, store it back and null it if asked. -/
def Sem.sub (fo : FieldOps T) (get : T → Except Err T) (put : T → T → T) (nul : Int)
    (a : Sem R T) : Sem R T := fun r t =>
  match get t with
  | .error e => .err e
  | .ok s => match a r s with
    | .timeout => .timeout
    | .err e => .err e
    | .done (f, r', s') => match fo.finalize s' with
      | .error e => .err e
      | .ok s'' => match nullIf fo f (put t s'') nul with
        | .error e => .err e
        | .ok t' => .done (false, r', t')

/-- Enter field `i`. -/
def Sem.field (fo : FieldOps T) (i : Nat) (a : Sem R T) : Sem R T :=
  .sub fo (fun t => fo.get t i) (fun t s => fo.put t i s) i a

/-- Select member `i` of a union target and enter it. -/
def Sem.member (fo : FieldOps T) (i : Nat) (a : Sem R T) : Sem R T :=
  .seq (.act fun t => fo.setLong t (BitVec.ofInt 64 i)) (.field fo i a)

/-- Repeat a number of times, forgetting the flag. -/
def Sem.rep (a : Sem R T) : Nat → Sem R T
  | 0 => .skip
  | k + 1 => .seq a.noFlag (Sem.rep a k)

/-- The blocks of an array or a map. The number bounds how many are read. -/
def Sem.blocks (ro : ReaderOps R) (fo : FieldOps T) (a : Sem R T) : Nat → Sem R T
  | 0 => fun _ _ => .timeout
  | n + 1 => .read (readLong ro) fun c =>
      if c = 0 then .skip
      else if 0 < c.toInt then
        .seq (.act fun t => fo.hintSize t c) (.seq (.rep a c.toNat) (Sem.blocks ro fo a n))
      else .read (readLong ro) fun _ =>
        .seq (.act fun t => fo.hintSize t (-c))
          (.seq (.rep a (-c).toNat) (Sem.blocks ro fo a n))

/-- Read a primitive and, when there is a reader, set it. -/
def Sem.prim {α : Type} (rd : R → Except Err (α × R)) (set : T → α → Except Err T)
    (r : Option Ty) : Sem R T :=
  .read rd fun a => if r.isSome then .act fun t => set t a else .skip

section
variable (ro : ReaderOps R) (fo : FieldOps T) (we re : Env) (lax : Bool)

/-- One member of a writer union. -/
def memberSem (rec : Ty → Option Ty → Sem R T) (t : Ty) (reader : Option Ty) : Sem R T :=
  match reader with
  | none => rec t none
  | some (.union rs) =>
    match findIdx (fun r => r.goName re == t.goName we) 0 rs with
    | some (j, r) => if t.isNull then .nullExit else .member fo j (rec t (some r))
    | none =>
      match findIdx (t.readableBy we re) 0 rs with
      | some (j, r) => if t.isNull then .nullExit else .member fo j (rec t (some r))
      | none => .fail (.runtime (.noUnionField (t.goName we)))
  | some r =>
    if t.readableBy we re r then
      if t.isNull then .fail .panic
      else rec t (some r)
    else .fail (.runtime (.noUnionField (t.goName we)))

/-- The entry a 64-bit index selects. -/
def atIndex {α : Type} (l : List α) (v : BitVec 64) : Option α :=
  if 0 ≤ v.toInt then l[v.toInt.toNat]? else none

/-- Continue with the entry picked, if there is one. -/
def Sem.pick {α : Type} (o : Option α) (m : Msg) (F : α → Sem R T) : Sem R T :=
  match o with
  | none => .fail (.runtime m)
  | some a => F a

def unionSem (rec : Ty → Option Ty → Sem R T) (ts : List Ty) (reader : Option Ty) : Sem R T :=
  .read (readLong ro) fun v =>
    .pick (atIndex ts v) .unsupportedUnion fun t => memberSem fo we re rec t reader

/-- The reader's symbol for a writer's symbol. -/
def symbolSem (rSyms : List Str) (rDflt : Str) (s : Str) : Sem R T :=
  match symbolIndex rSyms s with
  | some k => .act fun t => fo.setInt t (BitVec.ofInt 32 k)
  | none =>
    if rDflt ≠ [] then
      match symbolIndex rSyms rDflt with
      | none => .fail .panic
      | some k => .act fun t => fo.setInt t (BitVec.ofInt 32 k)
    else .fail (.runtime (.noSymbol s))

def enumSem (wSyms : List Str) (reader : Option (List Str × Str)) : Sem R T :=
  .read (readLong ro) fun v =>
    match reader with
    | none => .skip
    | some (rSyms, rDflt) => .pick (atIndex wSyms v) .unexpectedEnum (symbolSem fo rSyms rDflt)

/-- The operand `11 + size` is read as the VM reads it (v10/vm/eval.go:44-64): for a
negative size it may denote another type. -/
def fixedSem (size : Int) (reader : Bool) : Sem R T := fun r t =>
  match doRead ro (11 + size) {} r with
  | .error e => .err e
  | .ok (fr, r') =>
    if reader then
      match fo.setBytes t fr.bytes with
      | .error e => .err e
      | .ok t' => .done (false, r', t')
    else .done (false, r', t)

def defaultsSem : List (Nat × Field) → Sem R T
  | [] => .skip
  | (i, _) :: fs => .seq (.act fun t => fo.setDefault t i) (defaultsSem fs)

def fieldsSem (rec : Ty → Option Ty → Sem R T) (reader : Option (List Field)) :
    List Field → Sem R T
  | [] => .skip
  | w :: ws =>
    match reader.bind (fun rfs => fieldByName rfs w.name) with
    | none => .seq (rec w.ty none) (fieldsSem rec reader ws)
    | some (i, rf) =>
      if w.ty.readableBy we re rf.ty then
        .seq (.field fo i (rec w.ty (some rf.ty))) (fieldsSem rec reader ws)
      else .fail .panic

def recordSem (rec : Ty → Option Ty → Sem R T) (wfs : List Field)
    (reader : Option (List Field)) : Sem R T :=
  .noFlag (.seq (fieldsSem fo we re rec reader wfs)
    (defaultsSem fo (match reader with
      | none => []
      | some rfs => missingFields wfs rfs)))

def defSem (rec : Ty → Option Ty → Sem R T) (wd : Def) (rd : Option Def) : Sem R T :=
  match wd.kind, rd.map Def.kind with
  | .record wfs, none => recordSem fo we re rec wfs none
  | .record wfs, some (.record rfs) => recordSem fo we re rec wfs (some rfs)
  | .fixed n, none => fixedSem ro fo n false
  | .fixed n, some (.fixed _) => fixedSem ro fo n true
  | .enum ss _, none => enumSem ro fo ss none
  | .enum ss _, some (.enum rss d) => enumSem ro fo ss (some (rss, d))
  | _, _ => .fail .panic

def refSem (rec : Ty → Option Ty → Sem R T) (q : QName) (q' : Option QName) : Sem R T :=
  match we.find q with
  | none => .fail .panic
  | some wd =>
    match q' with
    | none => defSem ro fo we re rec wd none
    | some q' =>
      match re.find q' with
      | none => .fail .panic
      | some rd => if lax || wd.readableBy rd then defSem ro fo we re rec wd (some rd) else .fail .panic

/-- The item of an array. -/
def itemSem (a : Sem R T) : Sem R T := .sub fo fo.appendArray fo.putArray (-1) a

/-- The entry of a map: the key, then the value. -/
def entrySem (a : Sem R T) : Sem R T :=
  .read (readString ro) fun k => .sub fo (fun t => fo.appendMap t k) (fun t s => fo.putMap t k s) (-1) a

def bodySem (n : Nat) (rec : Ty → Option Ty → Sem R T) (w : Ty) (r : Option Ty) : Sem R T :=
  match w with
  | .null => .skip
  | .bool => .prim (readBool ro) fo.setBoolean r
  | .int => .prim (readInt ro) fo.setInt r
  | .long => .prim (readLong ro) fo.setLong r
  | .float => .prim (readFloat ro) fo.setFloat r
  | .double => .prim (readDouble ro) fo.setDouble r
  | .bytes => .prim (readBytes ro) fo.setBytes r
  | .string => .prim (readString ro) fo.setString r
  | .union ts => unionSem ro fo we re rec ts r
  | .array wi => match r with
    | none => .blocks ro fo (rec wi none) n
    | some (.array ri) => .blocks ro fo (itemSem fo (rec wi (some ri))) n
    | _ => .fail .panic
  | .map wi => match r with
    | none => .blocks ro fo (.read (readString ro) fun _ => rec wi none) n
    | some (.map ri) => .blocks ro fo (entrySem ro fo (rec wi (some ri))) n
    | _ => .fail .panic
  | .ref q => match r with
    | none => refSem ro fo we re lax rec q none
    | some (.ref q') => refSem ro fo we re lax rec q (some q')
    | _ => .fail .panic

/-- Decode a value written with type `w` into a target of type `r` (`none`: skip it).
The first argument bounds the depth of the recursion and the number of blocks of
each array and map. -/
def interp : Nat → Ty → Option Ty → Sem R T
  | 0, _, _ => fun _ _ => .timeout
  | n + 1, w, r =>
    match w.isUnion, r with
    | false, some (.union rs) =>
      match findIdx (w.readableBy we re) 0 rs with
      | some (i, r') => .member fo i (interp n w (some r'))
      | none => .fail .panic
    | _, _ => bodySem ro fo we re lax n (interp n) w r
end
end Verif
