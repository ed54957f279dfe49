import Verif.Gen.MethodsToks
import Verif.Props.Code
/-
C99: the methods of generated targets are, token for token, the programs that Props/Methods speaks of.
`PTy.methodTexts` are the texts that the templates give for a type, one for each method, `PTy.methods` the programs.
-/
namespace Verif.Props
open Verif Spec Spec.Go Spec.GoT

/-- C99: the text generated for each method of a type is the program, in the order of the template. -/
theorem methods_text (nm : Namer) (n : NS) (t : PTy) (ht : NamedTy n t) (hf : FieldNames n t) :
    (t.methodTexts nm n).map tokens = (t.methods nm n).map fun m => some m.toks := by
  cases t with
  | prim p d => rfl
  | array t d => exact texts_map (texts_array nm n (wrapper_exported (goName_exported nm n _ ht)) (phrase_type nm n ht) ht)
  | map t d => exact texts_map (texts_map_methods nm n (wrapper_exported (goName_exported nm n _ ht)) ht)
  | union name ts d => exact texts_map (texts_union nm n ht)
  | ref q =>
    obtain ⟨d, h1, h2⟩ := ht
    have hx : Exported (d.goName nm) := publicName_exported nm h2
    have hf' := hf q d
    simp only [PTy.methodTexts, PTy.methods, h1]
    cases hk : d.kind with
    | record fs doc => exact texts_map (texts_record nm n hx fs (hf' fs doc rfl h1 hk))
    | enum ss doc dflt => exact texts_map (texts_enum (wrapper_exported hx) hx)
    | fixed k => exact texts_map (texts_fixed (wrapper_exported hx))

/-- The fields of the wrapper of a type. -/
def wrapperFields (nm : Namer) (n : NS) (t : PTy) : List Member :=
  ⟨"Target".toList, .pointer (goTypeOf nm n t), none⟩ :: match t with
    | .map item _ => [⟨"keys".toList, .slice (.named "string".toList), none⟩, ⟨"values".toList, .slice (goTypeOf nm n item), none⟩]
    | _ => []

/-- C99: the declaration of a wrapper is a struct with a pointer to a variable of the type, and for a map with keys and
values besides. -/
theorem wrapper_declaration (nm : Namer) (n : NS) (t : PTy) (ht : NamedTy n t) (s : Str) (hs : t.wrapperDecl nm n = some s) :
    ∃ W, t.wrapper nm n = some (.named W) ∧ tokens s = some (structToks W (wrapperFields nm n t)) := by
  cases t with
  | prim p d => cases hs
  | array t d =>
    cases hs
    exact ⟨_, rfl, tokens_wrapper (wrapper_exported (goName_exported nm n _ ht)) (phrase_type nm n ht)⟩
  | map t d =>
    cases hs
    exact ⟨_, rfl, tokens_mapWrapper (wrapper_exported (goName_exported nm n _ ht)) (phrase_type nm n (t := t) ht)⟩
  | union name ts d => cases hs
  | ref q =>
    obtain ⟨d, h1, h2⟩ := ht
    have hx : Exported (d.goName nm) := publicName_exported nm h2
    have e : goTypeOf nm n (.ref q) = .named (d.goName nm) := by simp only [goTypeOf, PTy.goName, h1]
    simp only [PTy.wrapperDecl, h1] at hs
    simp only [PTy.wrapper, h1, wrapperFields, e]
    cases hk : d.kind with
    | record fs doc => simp only [hk] at hs; cases hs
    | enum ss doc dflt =>
      simp only [hk] at hs; cases hs
      exact ⟨_, rfl, tokens_wrapper (wrapper_exported hx) (phrase_exported hx)⟩
    | fixed k =>
      simp only [hk] at hs; cases hs
      exact ⟨_, rfl, tokens_wrapper (wrapper_exported hx) (phrase_exported hx)⟩

/-- An array of optional unions. -/
def itemsOfUnion : PTy := .array (.union [] [.prim .null .null, .map (.prim .bytes .null) .null] []) .null

example : (itemsOfUnion.methodTexts .simple {}).map tokens = (itemsOfUnion.methods .simple {}).map fun m => some m.toks :=
  methods_text .simple {} _ ⟨.inl rfl, trivial, trivial, trivial⟩ (by intro q d fs doc h; cases h)

/-- One of the texts. -/
example : (itemsOfUnion.methodTexts .simple {})[14]? =
    some (cat ["\nfunc (r ArrayUnionNullMapBytesWrapper)".toList, " AppendArray() types.Field {\n".toList, "\tvar v *UnionNullMapBytes\n".toList,
      "\tv = NewUnionNullMapBytes()\n".toList, "\n\t*r.Target = append(*r.Target, v)\n".toList,
      "        \n        return (*r.Target)[len(*r.Target)-1]\n}\n".toList]) := by decide +kernel

end Verif.Props
