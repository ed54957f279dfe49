import Verif.Spec.GoDefault
import Verif.Go.Decimal
/-
Defaults as Go statements: what `DefaultValue` (v10/schema/*.go) prints, and what stands in the constructor of a record
and in its `SetDefault`. Gen/DefaultCodeRun shows what the statements do, Gen/DefaultCodeText that the text is theirs.
-/
namespace Verif
open Spec Spec.Go Spec.GoD

/-- A statement about a part of a variable as one about the variable. -/
def Spec.GoD.St.under (s : Seg) : Spec.GoD.St → Spec.GoD.St
  | .assign l e => .assign (s :: l) e
  | .copy l bs => .copy (s :: l) bs

abbrev Sts := List Spec.GoD.St

/-- `l = T` with `ConstructorMethod` of a type, if it has one: v10/schema/record.go:84-89, array.go:67-69, union.go:120-122. -/
def ctorSts (nm : Namer) (n : NS) (t : PTy) : Sts := match t.ctor nm n with
  | none => []
  | some e => [.assign [] (.new e)]

/-- The loop of v10/schema/array.go:66-77, from item `i`. -/
def itemSts (ctor : Sts) (ap : Json → Made Sts) : Nat → List Json → Made Sts
  | _, [] => .ok []
  | i, j :: js => do
    let l ← ap j
    let r ← itemSts ctor ap (i + 1) js
    return (ctor ++ l).map (.under (.item i)) ++ r

/-- The loop of v10/schema/map.go:66-72. -/
def entrySts (ap : Json → Made Sts) : List (Str × Json) → Made Sts
  | [] => .ok []
  | (k, j) :: kvs => do
    let l ← ap j
    let r ← entrySts ap kvs
    return l.map (.under (.entry (utf8 k))) ++ r

/-- `FieldByName`, v10/schema/record.go:96-103. -/
def pFieldByName (fs : List PField) (k : Str) : Option PField := fs.find? fun f => decide (f.name = k ∨ k ∈ f.aliases)

/-- The loop of v10/schema/record.go:108-116. -/
def fieldSts (nm : Namer) (fs : List PField) (ap : Json → PTy → Made Sts) : List (Str × Json) → Made Sts
  | [] => .ok []
  | (k, j) :: kvs => match pFieldByName fs k with
    | none => .error .crash
    | some f => do
      let l ← ap j f.ty
      let r ← fieldSts nm fs ap kvs
      return l.map (.under (.field (fieldGoName nm f.name))) ++ r

/-- `DefaultValue(lvalue, rvalue)`, v10/schema/*.go, as statements about the lvalue. A number is given by the tokens of what
`%v` prints. The first argument bounds the depth of the recursion; the code has no bound. -/
def defaultSts (nm : Namer) (n : NS) : Nat → Json → PTy → Made Sts
  | 0, _, _ => .error .deep
  | k + 1, j, t => match t with
    -- null.go:17-19
    | .prim .null _ => .ok []
    -- bool.go:21-27
    | .prim .bool _ => match j with
      | .bool b => .ok [.assign [] (.bool b)]
      | _ => .error .gen
    -- bytes.go:23-31
    | .prim .bytes _ => match j with
      | .str s => .ok [.assign [] (.bytes (decodeByteString s))]
      | _ => .error .gen
    -- string.go:21-27
    | .prim .string _ => match j with
      | .str s => .ok [.assign [] (.text (utf8 s))]
      | _ => .error .gen
    -- int.go:21-27, long.go:21-27, float.go:21-27, double.go:21-26
    | .prim _ _ => match j.number with
      | none => .error .gen
      | some (a, d) => .ok [.assign [] (.num (numberToks a d))]
    -- array.go:59-79
    | .array it d => match j with
      | .arr js => do
        let l ← itemSts (ctorSts nm n it) (fun j => defaultSts nm n k j it) 0 js
        return .assign [] (.sized (goTypeOf nm n (.array it d)) js.length) :: l
      | _ => .error .gen
    -- map.go:59-74
    | .map it _ => match j with
      | .obj kvs => entrySts (fun j => defaultSts nm n k j it) kvs
      | _ => .error .gen
    -- union.go:112-125
    | .union name ts d => match ts with
      | [] => .error .crash
      | u :: _ =>
        if nullTy u then .ok [.assign [] .nil]
        else do
          let l ← defaultSts nm n k j u
          return .assign [] (.new (.call (newName ((PTy.union name ts d).goName nm n)))) ::
            (ctorSts nm n u ++ l).map (.under (.field (u.goName nm n)))
    -- reference.go:35-37
    | .ref q => match n.find q with
      | none => .error .crash
      | some d => match d.kind with
        -- enum.go:91-97
        | .enum _ _ _ => match j with
          | .str s => .ok [.assign [] (.const (symbolGoName nm (d.goName nm) s))]
          | _ => .error .gen
        -- fixed.go:65-71
        | .fixed _ => match j with
          | .str s => .ok [.copy [] (utf8 s)]
          | _ => .error .gen
        -- record.go:105-118
        | .record fs _ => match j with
          | .obj kvs => fieldSts nm fs (fun j t => defaultSts nm n k j t) kvs
          | _ => .error .crash

/-- The statements for the default of a field, if it has one, templates/record.go:38-40. -/
def dfltSts (nm : Namer) (n : NS) (k : Nat) (f : PField) : Made Sts := match f.dflt with
  | none => .ok []
  | some j => defaultSts nm n k j f.ty

/-- The statements for one field in a constructor, templates/record.go:33-40. -/
def freshSts (nm : Namer) (n : NS) (k : Nat) (f : PField) : Made Sts := do
  let l ← dfltSts nm n k f
  return ((if f.ty.erase.nullFirst then [] else ctorSts nm n f.ty) ++ l).map (.under (.field (fieldGoName nm f.name)))

/-- The body of the constructor of a record, templates/record.go:32-41. -/
def newSts (nm : Namer) (n : NS) (k : Nat) : List PField → Made Sts
  | [] => .ok []
  | f :: fs => do
    let l ← freshSts nm n k f
    let r ← newSts nm n k fs
    return l ++ r

/-- The cases of `SetDefault`, templates/record.go:124-130, from field `i`. -/
def setCases (nm : Namer) (n : NS) (k : Nat) : Nat → List PField → Made (List (Nat × Sts))
  | _, [] => .ok []
  | i, f :: fs => do
    let l ← dfltSts nm n k f
    let r ← setCases nm n k (i + 1) fs
    return if f.dflt.isSome then (i, l.map (.under (.field (fieldGoName nm f.name)))) :: r else r

end Verif
