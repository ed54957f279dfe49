import Verif.Props.Lax
import Verif.Props.Generic
/-
C76: null as a type of its own, outside unions.
-/
namespace Verif.Props
open Verif
set_option linter.unusedSimpArgs false
set_option linter.unusedVariables false

variable {R : Type} {σ : Setting R} {view : R → List Byte} {w r : Schema}

/-- C76: null takes no bytes. -/
theorem null_is_empty (env : Env) (d : Datum) (e : List Byte) : Enc env d .null e ↔ d = .null ∧ e = [] := by
  constructor
  · intro h
    cases d <;> simp [Enc] at h
    exact ⟨rfl, h⟩
  · rintro ⟨rfl, rfl⟩; exact ⟨rfl, rfl⟩

/-- C76: a part of the data whose type is null for writer and reader is null in the value, wherever it is. -/
theorem null_read_as_null {d : Datum} {rd rd' : R} {rest : List Byte}
    (h : Reading σ view w r d rd rest) {v : Val} (hv : Deserializes σ w r rd (.value v rd'))
    {p : List Step} (hp : Sees w.env r.env d w.root r.root p .null .null .null) : v.at p = some .null := by
  obtain ⟨u, h1, h2⟩ := part h hv hp
  simp only [resolve, Ty.isNull, if_true, readNull, Option.some.injEq] at h1
  subst h1
  rcases h2 with h2 | ⟨-, h2⟩
  · exact h2
  · cases h2

/-- `{n: null, xs: array of null, m: map of null, k: int}` -/
def qN : QName := ⟨[], "N".toList⟩
def nullFields : List Field :=
  [{ name := "n".toList, ty := .null }, { name := "xs".toList, ty := .array .null }, { name := "m".toList, ty := .map .null },
   { name := "k".toList, ty := .int }]
def nullS : Schema := one qN nullFields

theorem nullS_wellFormed : WellFormed nullS := wellFormed_of (fun _ => 0) (by decide +kernel)

def nullV : Val := .record [.null, .array [.null, .null], .map [([0x61], .null)], .int 5]

theorem nullV_hasTy : HasTy nullS.env 1000 nullV nullS.root :=
  ⟨qN, { name := qN, kind := .record nullFields }, nullFields, rfl, rfl, rfl,
    _, _, rfl, rfl, _, _, rfl, ⟨_, rfl, by decide, rfl, rfl, trivial⟩, _, _, rfl,
    ⟨_, rfl, by decide, by simp [Sorted], by decide, rfl, trivial⟩, _, _, rfl, rfl, rfl⟩

/-- The round trip (C11) with null in a field, an array and a map. -/
example : ∃ rd', Deserializes (demo true) nullS nullS [wire nullS true .rev nullV ++ [7]] (.value nullV rd') ∧ rd'.flatten = [7] :=
  (roundtrip_partial (σ := demo true) nullS_wellFormed (demo_delivers true) (by decide) true .rev nullV_hasTy (by simp [nullV])
    (rd := [wire nullS true .rev nullV ++ [7]]) (rest := [7]) (by simp)).2

example : wire nullS true .rev nullV = [4, 0, 2, 2, 0x61, 0, 10] := by decide +kernel

/-- A reader with the fields `k: long`, `n: null`. -/
def nullS' : Schema := one qN [{ name := "k".toList, ty := .long }, { name := "n".toList, ty := .null }]

theorem nullS'_suited : Suited nullS nullS' := by
  refine suited_plain (by decide +kernel) ?_
  have key : ∀ w r w' r', Meets nullS.env nullS'.env w r w' r' →
      ((w = .ref qN ∧ r = .ref qN) ∨ (w = .null ∧ r = .null) ∨ (w = .int ∧ r = .long)) →
      ((w' = .ref qN ∧ r' = .ref qN) ∨ (w' = .null ∧ r' = .null) ∨ (w' = .int ∧ r' = .long)) := by
    intro w r w' r' hm
    induction hm with
    | here => exact id
    | step hn _ ih =>
      intro h
      apply ih
      rcases h with ⟨rfl, rfl⟩ | ⟨rfl, rfl⟩ | ⟨rfl, rfl⟩
      · cases hn with
        | field h1 h2 h3 h4 h5 h6 h7 =>
          obtain ⟨-, rfl⟩ := one_find h1
          obtain ⟨-, rfl⟩ := one_find h2
          cases h3
          cases h4
          simp only [nullFields, List.mem_cons, List.not_mem_nil, or_false] at h5
          rcases h5 with rfl | rfl | rfl | rfl <;> simp [fieldByName, fieldByNameFrom] at h6 <;> obtain ⟨-, rfl⟩ := h6 <;> simp
      · cases hn
      · cases hn
  intro w' r' hm
  rcases key _ _ _ _ hm (.inl ⟨rfl, rfl⟩) with ⟨rfl, rfl⟩ | ⟨rfl, rfl⟩ | ⟨rfl, rfl⟩ <;>
    (rintro (⟨h1, h2⟩ | ⟨_, h1, _, h2⟩) <;> first | (cases h1; done) | (cases h2; done) | exact h2 rfl)

example : ∃ v rd', Deserializes (demo true) nullS nullS' [[0, 0, 10]] (.value v rd') ∧ v.at [.field 1] = some .null := by
  have hr : Reading (demo true) List.flatten nullS nullS' (.record [.null, .array [], .map [], .int 5]) [[0, 0, 10]] [] :=
    { suited := nullS'_suited
      delivers := demo_delivers true
      lim := by show 1000 < 2 ^ 63; decide
      within := within_of (by decide +kernel)
      enc := ⟨[0, 0, 10], encode_enc (by decide +kernel), by simp⟩ }
  obtain ⟨rd', h⟩ := value_exists (n := 12) (v := .record [.long 5, .null]) hr (by decide +kernel) (by with_unfolding_all rfl)
  exact ⟨_, rd', h, null_read_as_null hr h (.field (q := qN) (q' := qN) (i := 0) rfl rfl rfl rfl
    (matched_of rfl rfl (by decide +kernel)) rfl .here)⟩

/-- The generic decoder: nil for null (C37). -/
example : ∃ rd', GDeserializes (demo true) (bare .null) (bare .null) [[7]] (.value .nil rd') ∧ rd'.flatten = [7] := by
  obtain ⟨prog, hc⟩ := compiles_of (n := 4) (w := bare .null) (r := bare .null) (by decide +kernel)
  exact generic_shows (σ := demo true) (bare_generic (t := .null) trivial rfl rfl).suited (demo_delivers true) (by decide) hc
    (d := .null) (e := []) ⟨rfl, rfl⟩ (by trivial) (v := .null) (by with_unfolding_all rfl) rfl (by with_unfolding_all rfl)
    (rd := [[7]]) (rest := [7]) rfl

/-- C76 fails for a reader that made the field optional: null is read as a union that is not
nil, though Avro's rules give null, and such a value cannot be serialized. -/
theorem null_read_as_optional :
    Enc nullR.env (.record [.null]) nullR.root [] ∧
    resolve (fun _ => true) (demo true).dv nullR.env (optW [.null, .int]).env (.record [.null]) nullR.root (optW [.null, .int]).root
      = some (.record [.nil]) ∧
    Deserializes (demo true) nullR (optW [.null, .int]) [] (.value (.record [.union 0 (some .null)]) []) ∧
    ∀ bw mo, (serialize (optW [.null, .int]).env bw mo (.record [.union 0 (some .null)]) (optW [.null, .int]).root).2 = false :=
  ⟨encode_enc (by decide +kernel), by with_unfolding_all rfl, runs true 12 200 (by decide +kernel), by
    intro bw mo; with_unfolding_all rfl⟩

end Verif.Props
