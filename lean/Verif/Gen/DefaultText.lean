import Verif.Gen.DefaultCode
import Verif.Gen.MethodsText
import Verif.Go.Quote
/-
The text of defaults: what `DefaultValue` (v10/schema/*.go) prints, and the constructor and `SetDefault` of a record as
text/template makes them from v10/generator/flat/templates/record.go. `print` is `strconv.IsPrint`, which `%q` asks.
-/
namespace Verif
open Spec Spec.Go

/-- `lvalue = T` in a line of its own, with `ConstructorMethod` of the type, if it has one: v10/schema/record.go:84-89, array.go:67-69,
union.go:119-122. -/
def ctorLine (nm : Namer) (n : NS) (lv : Str) (t : PTy) : Str :=
  if t.ctorText nm n = [] then [] else cat [lv, " = ".toList, t.ctorText nm n, "\n".toList]

/-- The loop of v10/schema/array.go:66-77, from item `i`. -/
def itemTexts (ctor : Str → Str) (ap : Str → Json → Made Str) (lv : Str) : Nat → List Json → Made Str
  | _, [] => .ok []
  | i, j :: js => do
    let l ← ap (cat [lv, "[".toList, Nat.toDigits 10 i, "]".toList]) j
    let r ← itemTexts ctor ap lv (i + 1) js
    return cat [ctor (cat [lv, "[".toList, Nat.toDigits 10 i, "]".toList]), l, "\n".toList, r]

/-- The loop of v10/schema/map.go:66-72. -/
def entryTexts (print : Char → Bool) (ap : Str → Json → Made Str) (lv : Str) : List (Str × Json) → Made Str
  | [] => .ok []
  | (k, j) :: kvs => do
    let l ← ap (cat [lv, "[".toList, quoted print (utf8 k), "]".toList]) j
    let r ← entryTexts print ap lv kvs
    return cat [l, "\n".toList, r]

/-- The loop of v10/schema/record.go:108-116. -/
def fieldTexts' (nm : Namer) (fs : List PField) (ap : Str → Json → PTy → Made Str) (lv : Str) : List (Str × Json) → Made Str
  | [] => .ok []
  | (k, j) :: kvs => match pFieldByName fs k with
    | none => .error .crash
    | some f => do
      let l ← ap (cat [lv, ".".toList, fieldGoName nm f.name]) j f.ty
      let r ← fieldTexts' nm fs ap lv kvs
      return cat [l, "\n".toList, r]

/-- `DefaultValue(lvalue, rvalue)`, v10/schema/*.go. The number bounds the depth of the recursion; the code has no bound. -/
def defaultValue (nm : Namer) (n : NS) (print : Char → Bool) : Nat → Str → Json → PTy → Made Str
  | 0, _, _, _ => .error .deep
  | k + 1, lv, j, t => match t with
    -- null.go:17-19
    | .prim .null _ => .ok []
    -- bool.go:21-27
    | .prim .bool _ => match j with
      | .bool b => .ok (cat [lv, " = ".toList, if b then "true".toList else "false".toList])
      | _ => .error .gen
    -- bytes.go:23-31
    | .prim .bytes _ => match j with
      | .str s => .ok (cat [lv, " = []byte(".toList, quoted print (decodeByteString s), ")".toList])
      | _ => .error .gen
    -- string.go:21-27
    | .prim .string _ => match j with
      | .str s => .ok (cat [lv, " = ".toList, quoted print (utf8 s)])
      | _ => .error .gen
    -- int.go:21-27, long.go:21-27, float.go:21-27, double.go:21-26
    | .prim _ _ => match j.number with
      | none => .error .gen
      | some (a, d) => .ok (cat [lv, " = ".toList, numberText a d])
    -- array.go:59-79
    | .array it d => match j with
      | .arr js => do
        let l ← itemTexts (fun lv => ctorLine nm n lv it) (fun lv j => defaultValue nm n print k lv j it) lv 0 js
        return cat [lv, " = make(".toList, (PTy.array it d).goType nm n, ",".toList, Nat.toDigits 10 js.length, ")\n".toList, l]
      | _ => .error .gen
    -- map.go:59-74
    | .map it _ => match j with
      | .obj kvs => entryTexts print (fun lv j => defaultValue nm n print k lv j it) lv kvs
      | _ => .error .gen
    -- union.go:112-125
    | .union name ts d => match ts with
      | [] => .error .crash
      | u :: _ =>
        if nullTy u then .ok (cat [lv, " = nil".toList])
        else do
          let l ← defaultValue nm n print k (cat [lv, ".".toList, u.goName nm n]) j u
          return cat [lv, " = ".toList, (PTy.union name ts d).ctorText nm n, "\n".toList,
            ctorLine nm n (cat [lv, ".".toList, u.goName nm n]) u, l]
    -- reference.go:35-37
    | .ref q => match n.find q with
      | none => .error .crash
      | some d => match d.kind with
        -- enum.go:91-97
        | .enum _ _ _ => match j with
          | .str s => .ok (cat [lv, " = ".toList, symbolGoName nm (d.goName nm) s])
          | _ => .error .gen
        -- fixed.go:65-71
        | .fixed _ => match j with
          | .str s => .ok (cat ["copy(".toList, lv, "[:], []byte(".toList, quoted print (utf8 s), "))".toList])
          | _ => .error .gen
        -- record.go:105-118
        | .record fs _ => match j with
          | .obj kvs => fieldTexts' nm fs (fun lv j t => defaultValue nm n print k lv j t) lv kvs
          | _ => .error .crash

/-- `DefaultForField`, v10/schema/record.go:80-82, if the field has a default; `after` is what the template puts behind it. -/
def defaultForField (nm : Namer) (n : NS) (print : Char → Bool) (k : Nat) (f : PField) (after : String) : Made Str := match f.dflt with
  | none => .ok []
  | some j => do
    let l ← defaultValue nm n print k (cat ["r.".toList, fieldGoName nm f.name]) j f.ty
    return cat [l, after.toList]

/-- templates/record.go:33-40, for one field: `ConstructableForField` ends in a line end, and the template puts another behind it. -/
def freshText (nm : Namer) (n : NS) (print : Char → Bool) (k : Nat) (f : PField) : Made Str := do
  let l ← defaultForField nm n print k f "\n\t"
  return cat [if f.ty.erase.nullFirst then [] else if f.ty.ctorText nm n = [] then [] else
    cat [ctorLine nm n (cat ["r.".toList, fieldGoName nm f.name]) f.ty, "\n                ".toList], l]

/-- The loop of templates/record.go:32-41. -/
def freshTexts (nm : Namer) (n : NS) (print : Char → Bool) (k : Nat) : List PField → Made Str
  | [] => .ok []
  | f :: fs => do
    let l ← freshText nm n print k f
    let r ← freshTexts nm n print k fs
    return cat [l, r]

/-- The constructor of a record, templates/record.go:30-43. -/
def constructorText (nm : Namer) (n : NS) (print : Char → Bool) (k : Nat) (name : Str) (fs : List PField) : Made Str := do
  let l ← freshTexts nm n print k fs
  return cat ["\nfunc ".toList, newName name, "() (".toList, name, ") {\n\tr := ".toList, name, "{}\n\t".toList, l, "return r\n}\n".toList]

/-- The loop of templates/record.go:124-130, from field `i`. -/
def setDefaultTexts (nm : Namer) (n : NS) (print : Char → Bool) (k : Nat) : Nat → List PField → Made Str
  | _, [] => .ok []
  | i, f :: fs => do
    let l ← defaultForField nm n print k f "\n\t\treturn\n\t"
    let r ← setDefaultTexts nm n print k (i + 1) fs
    return cat [if f.dflt.isSome then cat ["case ".toList, Nat.toDigits 10 i, ":\n       \t \t".toList] else [], l, r]

/-- `SetDefault`, templates/record.go:122-133. -/
def setDefaultText (nm : Namer) (n : NS) (print : Char → Bool) (k : Nat) (name : Str) (fs : List PField) : Made Str := do
  let l ← setDefaultTexts nm n print k 0 fs
  return cat ["\nfunc (r ".toList, "*".toList ++ name, ") SetDefault(i int) {".toList, "\n\tswitch (i) {\n\t".toList, l,
    "}\n\tpanic(".toList, inQuotes "Unknown field index".toList, ")\n}\n".toList]

end Verif
