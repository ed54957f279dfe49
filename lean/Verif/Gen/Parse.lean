import Verif.Spec.Resolve
import Verif.Compiler.Interp
/-
Reading the datum that is on the wire, under the writer's schema alone. This is not a
model of code in /repo: compiled programs never build a `Datum`. It separates what is
read from what is made of it (`resolve`); `Verif.Gen.Agree` shows that compiled programs
do both.
-/
namespace Verif
variable {R : Type}

/-- Turn a primitive reader's result into a datum. -/
def lift {α : Type} (g : α → Datum) : Except Err (α × R) → Out (Datum × R)
  | .error e => .err e
  | .ok (a, r) => .done (g a, r)

/-- Continue with what was read. -/
def Out.bind {α β : Type} (x : Out α) (f : α → Out β) : Out β :=
  match x with
  | .timeout => .timeout
  | .err e => .err e
  | .done a => f a

/-- Read something a number of times. -/
def parseRep {α : Type} (p : R → Out (α × R)) : Nat → R → Out (List α × R)
  | 0, r => .done ([], r)
  | k + 1, r => (p r).bind fun x => (parseRep p k x.2).bind fun y => .done (x.1 :: y.1, y.2)

/-- The blocks of an array or a map; the number bounds how many are read. The count of the
first block must be in the range that `make` accepts. -/
def parseBlocks {α : Type} (ro : ReaderOps R) (lim : Nat) (p : R → Out (α × R)) :
    Nat → Bool → R → Out (List α × R)
  | 0, _, _ => .timeout
  | n + 1, first, r =>
    match readLong ro r with
    | .error e => .err e
    | .ok (c, r1) =>
      if c = 0 then .done ([], r1)
      else if 0 < c.toInt then items n first c r1
      else match readLong ro r1 with
        | .error e => .err e
        | .ok (_, r2) => items n first (-c) r2
where
  items (n : Nat) (first : Bool) (c : BitVec 64) (r : R) : Out (List α × R) :=
    if first ∧ (c.toInt < 0 ∨ (lim : Int) < c.toInt) then .err .panic
    else (parseRep p c.toNat r).bind fun x =>
      (parseBlocks ro lim p n false x.2).bind fun y => .done (x.1 ++ y.1, y.2)

/-- The fields of a record. -/
def parseFields (p : Ty → R → Out (Datum × R)) : List Field → R → Out (List Datum × R)
  | [], r => .done ([], r)
  | f :: fs, r => (p f.ty r).bind fun x =>
      (parseFields p fs x.2).bind fun y => .done (x.1 :: y.1, y.2)

/-- An entry of a map. -/
def parseEntry (ro : ReaderOps R) (p : R → Out (Datum × R)) (r : R) : Out ((List Byte × Datum) × R) :=
  match readString ro r with
  | .error e => .err e
  | .ok (k, r1) => (p r1).bind fun x => .done ((k, x.1), x.2)

section
variable (ro : ReaderOps R) (lim : Nat) (we : Env)

/-- A datum of a named type. -/
def parseDef (p : Ty → R → Out (Datum × R)) (d : Def) (r : R) : Out (Datum × R) :=
  match d.kind with
  | .record fs => (parseFields p fs r).bind fun x => .done (.record x.1, x.2)
  | .enum _ _ => lift (fun v => .enum v.toInt) (readLong ro r)
  | .fixed k => lift .fixed (readFixed ro k r)

/-- A datum of type `w`. The first argument bounds the depth of the datum and the number
of blocks of each array and map. -/
def parse : Nat → Ty → R → Out (Datum × R)
  | 0, _, _ => .timeout
  | n + 1, w, r =>
    match w with
    | .null => .done (.null, r)
    | .bool => lift .bool (readBool ro r)
    | .int => lift .int (readInt ro r)
    | .long => lift .long (readLong ro r)
    | .float => lift .float (readFloat ro r)
    | .double => lift .double (readDouble ro r)
    | .bytes => lift .bytes (readBytes ro r)
    | .string => lift .string (readString ro r)
    | .array t => (parseBlocks ro lim (parse n t) n true r).bind fun x => .done (.array x.1, x.2)
    | .map t => (parseBlocks ro lim (parseEntry ro (parse n t)) n true r).bind fun x =>
        .done (.map x.1, x.2)
    | .union ts =>
      match readLong ro r with
      | .error e => .err e
      | .ok (v, r1) => match atIndex ts v with
        | none => .err (.runtime .unsupportedUnion)
        | some t => (parse n t r1).bind fun x => .done (.union v.toNat x.1, x.2)
    | .ref q => match we.find q with
      | none => .err .panic
      | some d => parseDef ro (parse n) d r
end
end Verif
