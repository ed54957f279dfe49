import Verif.Gen.DefaultOrder
import Verif.Props.DefaultsEx
/-
Property C79: what the constructors of generated code and `SetDefault` do is the same from one run of
the generator to the next.

The generator walks the objects in a default with `range` over a Go map, whose order is random. `Shuffled`
(Spec/Shuffle) relates a JSON value and the same value with the members of its objects in another
order; `EnvShuffled env env'` says that two lists of definitions differ only in that. Both orders are arbitrary:
the constructors' statements come from one walk and those in `SetDefault` from another.
-/
namespace Verif.Props
open Verif

variable {nm : Namer} {env env' : Env}

/-- C79, in part: what a constructor returns, and whether it returns, is the same for all orders. Missing: defaults that
name a field twice, by its name and an alias. -/
theorem new_any_order_partial (he : EnvShuffled env env') (hc : DefaultsClear env) (q : QName) (vs : List Val) :
    New nm env q vs ↔ New nm env' q vs :=
  ⟨fun ⟨n, h⟩ => ⟨n, ((order_agree he hc n).1 _ _).1 h⟩, fun ⟨n, h⟩ => ⟨n, ((order_agree he hc n).1 _ _).2 h⟩⟩

theorem shuffled_at {fs fs' : List Field} (h : FieldsShuffled fs fs') (i : Nat) : (fs[i]? = none ∧ fs'[i]? = none) ∨
    ∃ f f', fs[i]? = some f ∧ fs'[i]? = some f' ∧ f.Shuffled f' := by
  induction h generalizing i with
  | nil => exact .inl ⟨rfl, rfl⟩
  | cons hf _ ih =>
    cases i with
    | zero => exact .inr ⟨_, _, rfl, rfl, hf⟩
    | succ i => exact ih i

/-- C79, in part: and so is what `SetDefault` does. Missing as above. -/
theorem set_default_any_order_partial (he : EnvShuffled env env') (hc : DefaultsClear env) {q : QName} {d : Def}
    {fs fs' : List Field} (hq : env.find q = some d) (hk : d.kind = .record fs) (hs : FieldsShuffled fs fs')
    (vs : List Val) (i : Nat) (vs' : List Val) :
    SetsDefault nm env fs vs i vs' ↔ SetsDefault nm env' fs' vs i vs' := by
  have key : ∀ n, AgreeOn (setDefaultOf nm env n fs vs i) (setDefaultOf nm env' n fs' vs i) := by
    intro n
    unfold setDefaultOf
    rcases shuffled_at hs i with ⟨h1, h2⟩ | ⟨f, f', h1, h2, h3⟩
    · rw [h1, h2]; exact .refl _
    · rw [h1, h2]
      dsimp only
      rw [← h3.ty]
      rcases h3.dflt with ⟨e1, e2⟩ | ⟨j, j', e1, e2, e3⟩
      · rw [e1, e2]; exact .refl _
      · rw [e1, e2]
        dsimp only
        refine AgreeOn.bind ?_ fun _ _ => .refl _
        unfold onField
        refine AgreeOn.bind (.refl _) fun v _ => ?_
        refine ((order_agree he hc n).2 j j' f.ty true _ e3 ?_).bind fun _ _ => .refl _
        exact hc q d fs f j hq hk (List.mem_iff_getElem?.2 ⟨i, h1⟩) e1
  exact ⟨fun ⟨n, h⟩ => ⟨n, (key n _).1 h⟩, fun ⟨n, h⟩ => ⟨n, (key n _).2 h⟩⟩

/-- No object in the value has a key twice. -/
inductive KeysOnce : Json → Prop
  | atom {j} : (∀ js, j ≠ .arr js) → (∀ kvs, j ≠ .obj kvs) → KeysOnce j
  | arr {js} : (∀ j ∈ js, KeysOnce j) → KeysOnce (.arr js)
  | obj {kvs : List (Str × Json)} : (kvs.map Prod.fst).Nodup → (∀ x ∈ kvs, KeysOnce x.2) → KeysOnce (.obj kvs)

theorem fieldByNameFrom_answers {fs : List Field} {k : Str} {i n : Nat} {f : Field} (h : fieldByNameFrom n fs k = some (i, f)) :
    n ≤ i ∧ fs[i - n]? = some f ∧ (f.name = k ∨ k ∈ f.aliases) := by
  induction fs generalizing n with
  | nil => cases h
  | cons g fs ih =>
    unfold fieldByNameFrom at h
    by_cases hc : g.name = k ∨ k ∈ g.aliases
    · rw [if_pos hc] at h; cases h; simp [hc]
    · rw [if_neg hc] at h
      obtain ⟨h1, h2, h3⟩ := ih h
      refine ⟨by omega, ?_, h3⟩
      rw [show i - n = (i - (n + 1)) + 1 by omega]
      exact h2

/-- Without aliases of fields nothing is ambiguous. -/
theorem clear_without_aliases
    (ha : ∀ q d fs f, env.find q = some d → d.kind = .record fs → f ∈ fs → f.aliases = [])
    (hk : ∀ q d fs f j, env.find q = some d → d.kind = .record fs → f ∈ fs → f.dflt = some j → KeysOnce j) :
    DefaultsClear env := by
  intro q d fs f j h1 h2 h3 h4 h
  have h5 := hk q d fs f j h1 h2 h3 h4
  revert h5
  generalize f.ty = t at h
  clear h4
  induction h with
  | twice h => intro h5; cases h5 with
    | atom _ h' => exact h' _ rfl
    | obj h' => exact h h'
  | @field kvs q d fs x y i f g e1 e2 hx hy hne e3 e4 =>
    intro _
    obtain ⟨-, g1, g2⟩ := fieldByNameFrom_answers e3
    obtain ⟨-, g3, g4⟩ := fieldByNameFrom_answers e4
    rw [g1] at g3; cases g3
    have := ha q d fs f e1 e2 (List.mem_iff_getElem?.2 ⟨_, g1⟩)
    rw [this] at g2 g4
    rcases g2 with g2 | g2
    · rcases g4 with g4 | g4
      · exact hne (g2.symm.trans g4)
      · cases g4
    · cases g2
  | item hm _ ih => intro h5; cases h5 with
    | atom h' => exact h' _ rfl
    | arr h' => exact ih (h' _ hm)
  | value hm _ ih => intro h5; cases h5 with
    | atom _ h' => exact h' _ rfl
    | obj _ h' => exact ih (h' _ hm)
  | inner _ _ hm _ _ ih => intro h5; cases h5 with
    | atom _ h' => exact h' _ rfl
    | obj _ h' => exact ih (h' _ hm)
  | member _ _ ih => exact ih

theorem means_once {j : Json} {t : Ty} {v : Val} (h : DefaultMeans env false j t v) {kvs : List (Str × Json)} (e : j = .obj kvs) :
    (kvs.map Prod.fst).Nodup := by
  induction h with
  | map h => cases e; exact h
  | record _ _ h => cases e; exact h
  | union _ _ _ ih => exact ih e
  | float h => subst e; cases h
  | double h => subst e; cases h
  | _ => cases e

theorem get_of_len {α β : Type} {l : List α} {l' : List β} (h : l.length = l'.length) {i : Nat} {a : α} (hi : l[i]? = some a) :
    ∃ b, l'[i]? = some b := by
  obtain ⟨h1, -⟩ := List.getElem?_eq_some_iff.1 hi
  exact ⟨_, List.getElem?_eq_getElem (h ▸ h1)⟩

theorem member_of_mem {kvs : List (Str × Json)} (hn : (kvs.map Prod.fst).Nodup) {x : Str × Json} (h : x ∈ kvs) :
    member kvs x.1 = some x.2 := by
  induction kvs with
  | nil => cases h
  | cons y kvs ih =>
    simp only [List.map_cons, List.nodup_cons] at hn
    unfold member
    rcases List.mem_cons.1 h with rfl | h
    · rw [if_pos rfl]
    · have : y.1 ≠ x.1 := fun e => hn.1 (e ▸ List.mem_map_of_mem h)
      rw [if_neg this, ih hn.2 h]

/-- Nor is a default that means something by Avro's rules. -/
theorem not_ambiguous_of_means (hF : FieldsApart env) {j : Json} {t : Ty} (h : Ambiguous env j t) :
    ∀ v, ¬DefaultMeans env false j t v := by
  induction h with
  | twice h => exact fun v hv => h (means_once hv rfl)
  | @field kvs q d fs x y i f g e1 e2 hx hy hne e3 e4 =>
    intro v hv
    cases hv with
    | record g1 g2 g3 g4 =>
      rw [e1] at g1; cases g1
      rw [e2] at g2; cases g2
      obtain ⟨f1, m1, n1⟩ := g4 x hx
      obtain ⟨f2, m2, n2⟩ := g4 y hy
      obtain ⟨i1, m1⟩ := List.mem_iff_getElem?.1 m1
      obtain ⟨i2, m2⟩ := List.mem_iff_getElem?.1 m2
      have k1 := hF.self e1 e2 m1
      have k2 := hF.self e1 e2 m2
      rw [n1, e3] at k1; cases k1
      rw [n2, e4] at k2; cases k2
      rw [m1] at m2; cases m2
      exact hne (n1.symm.trans n2)
  | item hm _ ih =>
    intro v hv
    cases hv with
    | array hl h1 =>
      obtain ⟨i, hi⟩ := List.mem_iff_getElem?.1 hm
      obtain ⟨w, hw⟩ := get_of_len hl hi
      exact ih w (h1 i _ w hi hw)
  | value hm _ ih =>
    intro v hv
    cases hv with
    | map _ hl h1 =>
      obtain ⟨i, hi⟩ := List.mem_iff_getElem?.1 hm
      obtain ⟨w, hw⟩ := get_of_len hl hi
      exact ih w (h1 i _ w hi hw)
  | inner e1 e2 hm e3 _ ih =>
    intro v hv
    cases hv with
    | record g1 g2 g3 g4 hl _ h1 =>
      rw [e1] at g1; cases g1
      rw [e2] at g2; cases g2
      obtain ⟨f1, m1, n1⟩ := g4 _ hm
      obtain ⟨i1, m1⟩ := List.mem_iff_getElem?.1 m1
      have k1 := hF.self e1 e2 m1
      rw [n1, e3] at k1; cases k1
      obtain ⟨w, hw⟩ := get_of_len hl m1
      refine ih w (h1 _ _ w _ m1 hw ?_)
      unfold Field.given
      rw [n1, member_of_mem g3 hm]
  | member e _ ih =>
    intro v hv
    cases hv with
    | unionNull h1 =>
      rw [e] at h1; cases h1
      exact ih _ .null
    | union h1 _ h2 =>
      rw [e] at h1; cases h1
      exact ih _ h2

/-- So the orders do not matter where all defaults are ones that Avro allows. -/
theorem clear_of_avro (hF : FieldsApart env) (h : ∀ q d fs f j, env.find q = some d → d.kind = .record fs → f ∈ fs →
    f.dflt = some j → ∃ v, DefaultMeans env false j f.ty v) : DefaultsClear env := by
  intro q d fs f j h1 h2 h3 h4 ha
  obtain ⟨v, hv⟩ := h q d fs f j h1 h2 h3 h4
  exact not_ambiguous_of_means hF ha v hv

/-! ### Cases -/

/-- One definition more, in one order and another. -/
theorem shuffled_cons {q : QName} {d d' : Def} (hn : d.name = d'.name) (hk : KindShuffled d.kind d'.kind)
    (h : EnvShuffled env env') : EnvShuffled ((q, d) :: env) ((q, d') :: env') := by
  intro p
  unfold Env.find
  by_cases e : q = p
  · rw [if_pos e, if_pos e]; exact .inr ⟨d, d', rfl, rfl, hn, hk⟩
  · rw [if_neg e, if_neg e]; exact h p

theorem shuffled_nil : EnvShuffled [] [] := fun _ => .inl ⟨rfl, rfl⟩

/-- A record `D` with a field of record type `P`, whose default is `j`. -/
def orderEnv (j : Json) (ps : List Field) : Env :=
  [(qD, { name := qD, kind := .record [fldD "x" (.ref qDP) j] }), (qDP, { name := qDP, kind := .record ps })]

theorem order_shuffled {j j' : Json} (h : Shuffled j j') (ps : List Field) :
    EnvShuffled (orderEnv j ps) (orderEnv j' ps) :=
  shuffled_cons rfl (.record (.cons ⟨rfl, rfl, rfl, .inr ⟨j, j', rfl, rfl, h⟩⟩ .nil))
    (shuffled_cons rfl (.record (by
      induction ps with
      | nil => exact .nil
      | cons f fs ih =>
        refine .cons ⟨rfl, rfl, rfl, ?_⟩ ih
        cases f.dflt with
        | none => exact .inl ⟨rfl, rfl⟩
        | some k => exact .inr ⟨k, k, rfl, rfl, .refl⟩)) shuffled_nil)

theorem order_cases {j : Json} {ps : List Field} {q d fs f} (h1 : (orderEnv j ps).find q = some d) (h2 : d.kind = .record fs)
    (h3 : f ∈ fs) : f = fldD "x" (.ref qDP) j ∨ f ∈ ps := by
  simp only [orderEnv, Env.find] at h1
  split at h1
  · cases h1; cases h2; left; simpa using h3
  · split at h1
    · cases h1; cases h2; exact .inr h3
    · cases h1

def mapXY (swap : Bool) : Json :=
  .obj (if swap then [("y".toList, .num 3), ("x".toList, .num 2)] else [("x".toList, .num 2), ("y".toList, .num 3)])

/-- {"a": true, "m": {"x": 2, "y": 3}}, in two orders -/
def nested (swap : Bool) : Json :=
  .obj (if swap then [("m".toList, mapXY true), ("a".toList, .bool true)] else [("a".toList, .bool true), ("m".toList, mapXY false)])

theorem nested_shuffled : Shuffled (nested false) (nested true) := by
  refine .obj (mid := [("a".toList, .bool true), ("m".toList, mapXY true)]) rfl ?_ (.swap _ _ _)
  intro i x y h1 h2
  match i with
  | 0 => cases h1; cases h2; exact .refl
  | 1 =>
    cases h1; cases h2
    refine .obj rfl (fun i x y h1 h2 => ?_) (.swap _ _ _)
    rw [h1] at h2; cases h2; exact .refl
  | i + 2 => simp at h1

def nestedFields : List Field := [fld "a" .bool, fld "m" (.map .int)]

theorem nested_clear : DefaultsClear (orderEnv (nested false) nestedFields) := by
  refine clear_without_aliases ?_ ?_
  · intro q d fs f h1 h2 h3
    rcases order_cases h1 h2 h3 with rfl | h
    · rfl
    · simp only [nestedFields, List.mem_cons, List.not_mem_nil, or_false] at h
      rcases h with rfl | rfl <;> rfl
  · intro q d fs f j h1 h2 h3 h4
    rcases order_cases h1 h2 h3 with rfl | h
    · cases h4
      refine .obj (by decide) ?_
      intro x hx
      simp only [Bool.false_eq_true, if_false, List.mem_cons, List.not_mem_nil, or_false] at hx
      rcases hx with rfl | rfl
      · exact .atom nofun nofun
      · refine .obj (by decide) ?_
        intro x hx
        simp only [Bool.false_eq_true, if_false, List.mem_cons, List.not_mem_nil, or_false] at hx
        rcases hx with rfl | rfl <;> exact .atom nofun nofun
    · simp only [nestedFields, List.mem_cons, List.not_mem_nil, or_false] at h
      rcases h with rfl | rfl <;> cases h4

/-- Both orders give the record {a: true, m: {x: 2, y: 3}}. -/
example : ∀ swap, New .simple (orderEnv (nested swap) nestedFields) qD
    [.record [.bool true, .map [(utf8 "x".toList, .int 2), (utf8 "y".toList, .int 3)]]] := by
  have h : New .simple (orderEnv (nested false) nestedFields) qD
      [.record [.bool true, .map [(utf8 "x".toList, .int 2), (utf8 "y".toList, .int 3)]]] := new_of 6 (by decide +kernel)
  intro swap
  cases swap with
  | false => exact h
  | true => exact (new_any_order_partial (order_shuffled nested_shuffled _) nested_clear _ _).1 h

/-- {"a": 1, "b": 2}, in two orders -/
def both (swap : Bool) : Json :=
  .obj (if swap then [("b".toList, .num 2), ("a".toList, .num 1)] else [("a".toList, .num 1), ("b".toList, .num 2)])

/-- A field `a` with the alias `b`. -/
def aliased : List Field := [{ name := "a".toList, aliases := ["b".toList], ty := .int }]

/-- C79 fails: a default that gives a value for the name of a field and one for an alias of it. The last one walked
stays. -/
theorem order_matters : ∃ (env env' : Env) (q : QName) (vs vs' : List Val),
    EnvShuffled env env' ∧ New .simple env q vs ∧ New .simple env' q vs' ∧ vs ≠ vs' := by
  refine ⟨orderEnv (both false) aliased, orderEnv (both true) aliased, qD, [.record [.int 2]], [.record [.int 1]],
    order_shuffled (.obj rfl (fun i x y h1 h2 => ?_) (.swap _ _ _)) _, new_of 6 (by decide +kernel),
    new_of 6 (by decide +kernel), fun h => ?_⟩
  · rw [h1] at h2; cases h2; exact .refl
  · cases h

end Verif.Props
