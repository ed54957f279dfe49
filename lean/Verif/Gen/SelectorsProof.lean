import Verif.Gen.FileParts
import Verif.Spec.GoSelectors
/-
What each part of the file of a record or union adds to the members and methods of its type.
-/
set_option autoImplicit false
namespace Verif
open Spec Spec.Go Props
set_option linter.unusedSimpArgs false

/-! ### Declarations -/

/-- A receiver for methods of `x`. -/
def Receives (x : Str) (t : GoTy) : Prop := t = .named x ∨ t = .pointer (.named x)

theorem selectors_method {x m : Str} {t : GoTy} (h : Receives x t) (r : Str) (us : List Tok) :
    selectors x (w "func" :: .sign '(' :: .word r :: (t.toks ++ .sign ')' :: .word m :: us)) = [m] := by
  rcases h with rfl | rfl <;> simp [selectors, GoTy.toks, w]

/-- A function has no receiver. -/
theorem selectors_function (x f : Str) (us : List Tok) : selectors x (w "func" :: .word f :: .sign '(' :: us) = [] := by
  simp [selectors, w]

theorem selectors_members (x : Str) : ∀ (ms : List Member), (cut 0 [] (ms.flatMap Member.toks ++ [.sign '}', .sign ';'])).filterMap firstWord = ms.map (·.name)
  | [] => rfl
  | m :: ms => by
    have h1 : One m.toks := by
      obtain ⟨n, t, tag⟩ := m
      have e : Member.toks ⟨n, t, tag⟩ = (.word n :: (t.toks ++ (tag.map Tok.text).toList)) ++ [.sign ';'] := by simp [Member.toks]
      rw [e]
      refine one_of ?_
      cases tag <;> brackets [ty_walk, Option.map_none, Option.map_some, Option.toList_none, Option.toList_some]
    rw [List.flatMap_cons, List.append_assoc, one_cut h1, List.filterMap_cons, selectors_members x ms]
    rfl

theorem selectors_struct (x : Str) (ms : List Member) : selectors x (structToks x ms) = ms.map (·.name) := by
  rw [← selectors_members x ms]
  simp [selectors, structToks, w]

/-! ### Parts -/

/-- A text of declarations that ends a line, whatever follows, and what they add to the members and methods of `x`. -/
def Adds (x s : Str) (ns : List Str) : Prop :=
  ∃ us, (∀ r vs, tokens r = some vs → tokens (s ++ r) = some (us ++ vs)) ∧ ∀ rest, selectorNames x (us ++ rest) = ns ++ selectorNames x rest

theorem adds_one {x s : Str} {us : List Tok} {ns : List Str} (h : tokens s = some us) (hl : Line s) (h1 : One us) (hs : selectors x us = ns) : Adds x s ns := by
  refine ⟨us, fun _ _ hr => tokens_cat h hl hr, fun rest => ?_⟩
  rw [selectorNames, one_cut h1, List.flatMap_cons, hs]
  rfl

/-- The parts of a file, and what they add. -/
inductive AddsAll (x : Str) : List Str → List Str → Prop
  | nil : AddsAll x [] []
  | cons {s : Str} {n : List Str} {ss : List Str} {ns : List Str} : Adds x s n → AddsAll x ss ns → AddsAll x (s :: ss) (n ++ ns)

theorem adds_append {x : Str} {ss ss' ns ns' : List Str} (h : AddsAll x ss ns) (h' : AddsAll x ss' ns') : AddsAll x (ss ++ ss') (ns ++ ns') := by
  induction h with
  | nil => exact h'
  | cons h1 _ ih => rw [List.cons_append, List.append_assoc]; exact .cons h1 ih

theorem adds_file {x : Str} {ss ns : List Str} (h : AddsAll x ss ns) : ∃ us, tokens (cat ss) = some us ∧ selectorNames x us = ns := by
  have : ∃ us, tokens (cat ss) = some us ∧ ∀ rest, selectorNames x (us ++ rest) = ns ++ selectorNames x rest := by
    induction h with
    | nil => exact ⟨[], rfl, fun _ => rfl⟩
    | cons h1 _ ih =>
      obtain ⟨us, h2, h3⟩ := h1
      obtain ⟨vs, h4, h5⟩ := ih
      exact ⟨us ++ vs, h2 _ _ h4, fun rest => by rw [List.append_assoc, h3, h5, List.append_assoc]⟩
  obtain ⟨us, h1, h2⟩ := this
  refine ⟨us, h1, ?_⟩
  have := h2 []
  simpa [selectorNames, cut] using this

theorem adds_method {x s : Str} {m : Spec.GoT.Method} (h : tokens s = some m.toks) (hl : Line s) (hr : Receives x m.recv.2) : Adds x s [m.name] := by
  refine adds_one h hl (method_one m) ?_
  have e : m.toks = w "func" :: .sign '(' :: .word m.recv.1 :: (m.recv.2.toks ++ .sign ')' :: .word m.name :: .sign '(' ::
    (Spec.GoT.commas (m.params.map Spec.GoT.paramToks) ++ .sign ')' :: (Spec.GoT.resultToks m.result ++ .sign '{' ::
    ((if m.short then (Spec.GoT.stsToks m.body).dropLast else Spec.GoT.stsToks m.body) ++ [.sign '}', .sign ';'])))) := by
    simp [Spec.GoT.Method.toks]
  rw [e]
  exact selectors_method hr _ _

theorem adds_methods {x : Str} : ∀ {ss : List Str} {ms : List Spec.GoT.Method}, TextsOf ss ms → (∀ s ∈ ss, Line s) → (∀ m ∈ ms, Receives x m.recv.2) →
    AddsAll x ss (ms.map (·.name))
  | [], [], _, _, _ => .nil
  | s :: ss, m :: ms, h, hl, hr =>
    .cons (n := [m.name]) (adds_method h.1 (hl s (by simp)) (hr m (by simp))) (adds_methods h.2 (fun s hs => hl s (by simp [hs])) fun m hm => hr m (by simp [hm]))

theorem adds_imports (x : Str) {paths : List Str} (h : tokens (importText paths) = some (Spec.GoE.importToks paths)) : Adds x (importText paths) [] := by
  refine adds_one h (by unfold importText; ends) (import_one paths) ?_
  cases paths <;> simp [selectors, Spec.GoE.importToks, w]

theorem adds_func {x s : Str} {f : Func} (h : tokens s = some f.toks) (hl : Line s) (hr : f.recv = none) : Adds x s [] := by
  refine adds_one h hl (func_one f) ?_
  obtain ⟨recv, name, params, body⟩ := f
  cases hr
  exact selectors_function _ _ _

theorem adds_serialize {x s : Str} {name : Str} {t : GoTy} (h : tokens s = some (serializeMethod name t).toks) (hl : Line s) (hr : Receives x t) : Adds x s ["Serialize".toList] := by
  refine adds_one h hl (func_one _) ?_
  have e : ∃ us, (serializeMethod name t).toks = w "func" :: .sign '(' :: .word "r".toList :: (t.toks ++ .sign ')' :: .word "Serialize".toList :: us) :=
    ⟨_, by simp [serializeMethod, Func.toks]; rfl⟩
  obtain ⟨us, e⟩ := e
  rw [e]
  exact selectors_method hr _ _

theorem adds_fn {x s : Str} {f : Spec.GoE.Fn} (h : Writes false s f.toks false) (hl : Line s) (h1 : One f.toks) (hr : f.recv = none) : Adds x s [] := by
  refine adds_one (writes_tokens h) hl h1 ?_
  obtain ⟨recv, name, params, result, body⟩ := f
  cases hr
  exact selectors_function _ _ _

theorem adds_constMethod {x s name : Str} {t : GoTy} {v : List Byte} (h : tokens s = some (methodToks t.toks name v)) (hl : Line s) (hr : Receives x t) : Adds x s [name] := by
  refine adds_one h hl (constMethod_one _ (level_ty t) _ _) ?_
  have e : methodToks t.toks name v = w "func" :: .sign '(' :: .word "r".toList :: (t.toks ++ .sign ')' :: .word name :: [.sign '(', .sign ')', w "string", .sign '{', w "return",
    .text v, .sign ';', .sign '}', .sign ';']) := by simp [methodToks, w]
  rw [e]
  exact selectors_method hr _ _

theorem adds_marshal {x s : Str} {t : GoTy} {body : List Spec.GoJ.MSt} (h : tokens s = some (Spec.GoJ.marshalToks "r".toList t body)) (hl : Line s) (hr : Receives x t) :
    Adds x s ["MarshalJSON".toList] := by
  refine adds_one h hl (marshal_one _ _ _) ?_
  have e : ∃ us, Spec.GoJ.marshalToks "r".toList t body = w "func" :: .sign '(' :: .word "r".toList :: (t.toks ++ .sign ')' :: .word "MarshalJSON".toList :: us) :=
    ⟨_, by simp [Spec.GoJ.marshalToks, w]; rfl⟩
  obtain ⟨us, e⟩ := e
  rw [e]
  exact selectors_method hr _ _

theorem adds_unmarshal {x s : Str} {t : GoTy} {body : List Spec.GoJ.USt} (h : tokens s = some (Spec.GoJ.unmarshalToks "r".toList t body)) (hl : Line s)
    (hb : ∀ s ∈ body, PlainRead s) (hr : Receives x t) : Adds x s ["UnmarshalJSON".toList] := by
  refine adds_one h hl (unmarshal_one _ _ hb) ?_
  have e : ∃ us, Spec.GoJ.unmarshalToks "r".toList t body = w "func" :: .sign '(' :: .word "r".toList :: (t.toks ++ .sign ')' :: .word "UnmarshalJSON".toList :: us) :=
    ⟨_, by simp [Spec.GoJ.unmarshalToks, w]; rfl⟩
  obtain ⟨us, e⟩ := e
  rw [e]
  exact selectors_method hr _ _

end Verif
