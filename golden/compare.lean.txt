import Verif.Props.Corpus
import Verif.Gen.FileText
open Verif Spec Spec.Go Verif.Props.Vectors Verif.Props.Corpus
namespace Gold
def W (s : String) : Tok := .word s.toList
def showTok : Tok → String
  | .word s => String.ofList s
  | .text v => "\"" ++ String.ofList (v.map fun b => Char.ofNat b.toNat) ++ "\""
  | .sign c => String.ofList [c]
/-- What gofmt does to tokens of generated files. -/
partial def norm : List Tok → List Tok
  | .word u :: .sign '(' :: .word d :: .sign '[' :: .sign ']' :: .word b :: .sign ')' :: .sign '(' :: .word e :: .sign ')' :: r =>
    if u = "UnmarshalJSON".toList then .word u :: .sign '(' :: .word d :: .sign '[' :: .sign ']' :: .word b :: .sign ')' :: .word e :: norm r
    else .word u :: norm (.sign '(' :: .word d :: .sign '[' :: .sign ']' :: .word b :: .sign ')' :: .sign '(' :: .word e :: .sign ')' :: r)
  | .word s :: .sign '(' :: .word i :: .sign ')' :: .sign '{' :: r =>
    if s = "switch".toList then .word s :: .word i :: .sign '{' :: norm r else .word s :: norm (.sign '(' :: .word i :: .sign ')' :: .sign '{' :: r)
  | .word f :: .word n :: .sign '(' :: .sign ')' :: .sign '(' :: .word i :: .sign ')' :: .sign '{' :: r =>
    if f = "func".toList then .word f :: .word n :: .sign '(' :: .sign ')' :: .word i :: .sign '{' :: norm r
    else .word f :: norm (.word n :: .sign '(' :: .sign ')' :: .sign '(' :: .word i :: .sign ')' :: .sign '{' :: r)
  | t :: r => t :: norm r
  | [] => []
def schemaOf : List Tok → Option (List Byte)
  | .word a :: .sign '(' :: .sign ')' :: .word b :: .sign '{' :: .word c :: .text v :: r =>
    if a = "Schema".toList ∧ c = "return".toList then some v else schemaOf (.word b :: .sign '{' :: .word c :: .text v :: r)
  | _ :: r => schemaOf r
  | [] => none
/-- imports and rest -/
def splitImports (ts : List Tok) : List String × List Tok :=
  match ts with
  | .word i :: .sign '(' :: r =>
    if i = "import".toList then
      let a := r.takeWhile (fun t => t ≠ .sign ')')
      ((a.filterMap fun t => match t with | .text v => some (showTok (.text v)) | _ => none).mergeSort (fun a b => decide (a ≤ b)), (r.dropWhile (fun t => t ≠ .sign ')')).drop 1)
    else ([], ts)
  | _ => ([], ts)
/-- Behind the package clause. -/
partial def body (s : Str) : Str :=
  if "package ".toList.isPrefixOf s then s.dropWhile (· ≠ '\n') else match s with
    | [] => []
    | _ => body ((s.dropWhile (· ≠ '\n')).drop 1)
def corpus : List (String × Namer × Bool × Bool × List Json) := [
  ("/repo/v10/test/alias-field", .simple, true, false, d_alias_field),
  ("/repo/v10/test/alias-field/evolution", .simple, true, false, d_alias_field_evolution),
  ("/repo/v10/test/alias-fixed", .simple, true, false, d_alias_fixed),
  ("/repo/v10/test/alias-fixed/evolution", .simple, true, false, d_alias_fixed_evolution),
  ("/repo/v10/test/alias-record", .simple, true, false, d_alias_record),
  ("/repo/v10/test/alias-record/evolution", .simple, true, false, d_alias_record_evolution),
  ("/repo/v10/test/arrays-union", .simple, true, false, d_arrays_union),
  ("/repo/v10/test/arrays", .simple, true, false, d_arrays),
  ("/repo/v10/test/avro-java-string", .simple, true, false, d_avro_java_string),
  ("/repo/v10/test/complex-arrays-multifile", .simple, true, false, d_complex_arrays_multifile),
  ("/repo/v10/test/complex-arrays", .simple, true, false, d_complex_arrays),
  ("/repo/v10/test/complex-union", .simple, true, false, d_complex_union),
  ("/repo/v10/test/default-fixed", .simple, true, false, d_default_fixed),
  ("/repo/v10/test/default-union", .simple, true, false, d_default_union),
  ("/repo/v10/test/default-union/evolution", .simple, true, false, d_default_union_evolution),
  ("/repo/v10/test/enum-default", .simple, true, false, d_enum_default),
  ("/repo/v10/test/enum-default/evolution", .simple, true, false, d_enum_default_evolution),
  ("/repo/v10/test/enum-multiple-namespaces", (.namespaced false), true, false, d_enum_multiple_namespaces),
  ("/repo/v10/test/enum-removed", .simple, true, false, d_enum_removed),
  ("/repo/v10/test/enum-removed/evolution", .simple, true, false, d_enum_removed_evolution),
  ("/repo/v10/test/enum", .simple, true, false, d_enum),
  ("/repo/v10/test/evolve-union", .simple, true, false, d_evolve_union),
  ("/repo/v10/test/evolve-union/evolution", .simple, true, false, d_evolve_union_evolution),
  ("/repo/v10/test/fixed-multiple-namespaces", (.namespaced false), true, false, d_fixed_multiple_namespaces),
  ("/repo/v10/test/fixed", .simple, true, false, d_fixed),
  ("/repo/v10/test/go-struct-tags", .simple, true, false, d_go_struct_tags),
  ("/repo/v10/test/lax-names", .simple, true, false, d_lax_names),
  ("/repo/v10/test/maps-union", .simple, true, false, d_maps_union),
  ("/repo/v10/test/maps", .simple, true, false, d_maps),
  ("/repo/v10/test/name-conflict", .simple, true, false, d_name_conflict),
  ("/repo/v10/test/namespace-full", (.namespaced false), true, false, d_namespace_full),
  ("/repo/v10/test/namespace-short", (.namespaced true), true, false, d_namespace_short),
  ("/repo/v10/test/nested-map-array", .simple, true, false, d_nested_map_array),
  ("/repo/v10/test/nested-maps", .simple, true, false, d_nested_maps),
  ("/repo/v10/test/nested", .simple, true, false, d_nested),
  ("/repo/v10/test/primitive", .simple, true, false, d_primitive),
  ("/repo/v10/test/primitive/evolution", .simple, true, false, d_primitive_evolution),
  ("/repo/v10/test/recursive-short", .simple, true, true, d_recursive_short),
  ("/repo/v10/test/recursive", .simple, true, false, d_recursive),
  ("/repo/v10/test/string", .simple, true, false, d_string),
  ("/repo/v10/test/union-root-short", .simple, true, false, d_union_root_short),
  ("/repo/v10/test/union-root", .simple, true, false, d_union_root),
  ("/repo/v10/test/union-short", .simple, true, false, d_union_short),
  ("/repo/v10/test/union-string-bytes", .simple, true, false, d_union_string_bytes),
  ("/repo/v10/test/union-string", .simple, true, false, d_union_string),
  ("/repo/v10/test/union", .simple, true, false, d_union),
  ("/repo/v10/test/union/evolution", .simple, true, false, d_union_evolution),
  ("/repo/v10/example/avro", .simple, true, false, d____example_avro)]
def drop : List Tok → List Tok
  | .sign ';' :: .sign '}' :: r => .sign '}' :: drop r
  | t :: r => t :: drop r
  | [] => []
def firstDiff : List Tok → List Tok → Nat → String
  | [], [], _ => "same"
  | a :: l, b :: m, i => if a = b then firstDiff l m (i+1) else s!"at {i}: model {(a::l).take 12 |>.map showTok} gold {(b::m).take 12 |>.map showTok}"
  | [], m, i => s!"at {i}: gold longer {m.take 8 |>.map showTok}"
  | l, [], i => s!"at {i}: model longer {l.take 8 |>.map showTok}"
def main : IO Unit := do
  for (path, nm, c, s, d) in corpus do
    match parseCommand s d with
    | .error _ => IO.println s!"{path}: ERROR"
    | .ok n =>
      for (f, b) in generate nm c n do
        let fn := path ++ "/" ++ String.ofList f
        let text ← try IO.FS.readFile fn catch _ => pure ""
        if text = "" then IO.println s!"{fn}: no file" else
        match tokens (body text.toList) with
        | none => IO.println s!"{fn}: gold does not lex"
        | some g =>
          let sch := (schemaOf g).getD []
          match templateText nm n shown 50 (fun _ => sch) b with
          | none => IO.println s!"{fn}: no text"
          | some t => match tokens t with
            | none => IO.println s!"{fn}: model text does not lex"
            | some m =>
              let (gi, gb) := splitImports g
              let (mi, mb) := splitImports (norm m)
              let r := firstDiff (drop mb) (drop gb) 0
              IO.println s!"{fn}: {if gi == mi then "imports ok" else s!"imports {mi} {gi}"} {r}"
end Gold
def main := Gold.main
