import Verif.Gen.DefaultTyped
import Verif.Props.DefaultsEx
import Verif.Props.Decode
import Verif.Props.WellCheck
/-
Property C84: what was decoded can be encoded again.

* `HasTy env L v t` (Gen/Serialize): `v` is a value of the Go type of `t` such as a user may build it:
  enums are among the constants, unions have a member assigned that belongs to their `UnionType`, byte strings have at most
  2^31-1 octets, collections at most `L` entries.
* `Counted` (Spec/Generic): unions and enums are not larger than Go's types for their indices.
* `DefaultsTyped` (Gen/Typed): declared defaults are values of the types of the fields; see C69.
* `σ.dv`: the values of the declared defaults.
-/
namespace Verif.Props
open Verif
set_option linter.unusedVariables false

section
variable {R : Type} {σ : Setting R} {view : R → List Byte}

/-- C84: what the generated function returns, for any input and any writer's schema, is a value of
the generated type; or it is the union without a member that stands for null at the root. -/
theorem decoded_hasTy {w r : Schema} (hs : Suited w r) (hg : Grounded w.env) (hd : σ.ro.Delivers view) (hr : Counted r)
    {L₀ : Nat} (hv : DefaultsTyped σ.dv L₀ r.env) {rd rd' : R} {u : Val} (h : Deserializes σ w r rd (.value u rd')) :
    u = .union 0 none ∨ ∃ L, HasTy r.env L u r.root := by
  obtain ⟨prog, d, v, h1, h2, h3, rfl⟩ := value_of hs hg hd h
  obtain ⟨e, h4, h5⟩ := reads_taken h2
  obtain ⟨L, hL⟩ := loose_within d _ _ h5
  by_cases hn : v = .nil
  · subst hn; exact .inl rfl
  · rw [rootVal_ne hn]
    exact .inr ⟨max L L₀, resolve_hasTy Datum.skippable σ.dv hs.tidyW hr
      (fun q d fs f hq hk hf hdf => hasTy_mono (by omega) _ _ (hv q d fs f hq hk hf hdf)) d _ _ e v h5 (hL _ (by omega)) hs.rootW hr.root h3⟩

theorem sampleR_short : Counted sampleR where
  root := rfl
  fields := by
    intro q d fs f h hk hf
    obtain ⟨rfl, rfl, rfl⟩ := sampleR_node h hk
    simp only [nodeFieldsR, List.mem_cons, List.not_mem_nil, or_false] at hf
    rcases hf with rfl | rfl | rfl | rfl | rfl | rfl | rfl <;> decide
  enums := by
    intro q d ss dd h hk
    rcases sampleR_find h with ⟨rfl, rfl⟩ | ⟨rfl, rfl⟩ <;> cases hk
    decide

theorem sampleR_defaults (L : Nat) (k : Bool) : DefaultsTyped (demo k).dv L sampleR.env := by
  intro q d fs f h hk hf hdf
  obtain ⟨rfl, rfl, rfl⟩ := sampleR_node h hk
  simp only [nodeFieldsR, List.mem_cons, List.not_mem_nil, or_false] at hf
  rcases hf with rfl | rfl | rfl | rfl | rfl | rfl | rfl <;> first | (cases hdf; done) | exact (rfl : Ty.int = Ty.int)

/-- Any input at all for the reader's schema of `sample`, which has a default. -/
example (input rd' : List (List Byte)) (u : Val) (h : Deserializes (demo true) sample sampleR input (.value u rd')) :
    u = .union 0 none ∨ ∃ L, HasTy sampleR.env L u sampleR.root :=
  decoded_hasTy sample_suited sample_wellFormed.grounded (demo_delivers true) sampleR_short (sampleR_defaults 0 true) h

/-- C84: what was decoded from any input is written without an error, as an encoding in the sense of Avro, and read
again as the same value, with any writer and any reader for which its collections are not too large. -/
theorem reencoded_partial {w r : Schema} (hs : Suited w r) (hg : Grounded w.env) (hd : σ.ro.Delivers view) (hw : WellFormed r)
    (hr : Counted r) {L₀ : Nat} (hv : DefaultsTyped σ.dv L₀ r.env) {rd rd' : R} {u : Val}
    (h : Deserializes σ w r rd (.value u rd')) (hn : u ≠ .union 0 none) :
    ∃ L, ∀ (lim : Nat), L ≤ lim → lim < 2 ^ 63 → ∀ (bw : Bool) (mo : MapOrder),
      (serialize r.env bw mo u r.root).2 = true ∧
      (∃ d, Enc r.env d r.root (wire r bw mo u)) ∧
      ∀ {R' : Type} (τ : Setting R') (view' : R' → List Byte), τ.ro.Delivers view' → τ.lim = lim →
      ∀ (rd2 : R') (rest : List Byte), view' rd2 = wire r bw mo u ++ rest →
      ∃ rd3, Deserializes τ r r rd2 (.value u rd3) ∧ view' rd3 = rest := by
  obtain ⟨L, hL⟩ := (decoded_hasTy hs hg hd hr hv h).resolve_left hn
  refine ⟨L, fun lim h1 h2 bw mo => ?_⟩
  have ht := hasTy_mono h1 _ _ hL
  have hnil : u ≠ .nil := by
    obtain ⟨prog, d, v, -, -, -, rfl⟩ := value_of hs hg hd h
    cases v <;> simp [rootVal]
  obtain ⟨d, e, h3, h4, h5, h6, h7⟩ := ser_enc r.env bw mo h2 u r.root [] ht
  refine ⟨h6, ⟨d, ?_⟩, fun τ view' hd' hl rd2 rest hin => ?_⟩
  · have : e = wire r bw mo u := by unfold wire serialize; exact h7.symm
    rw [← this]; exact h4
  · subst hl
    exact (roundtrip_partial hw hd' h2 bw mo ht hnil hin).2

theorem sampleR_wellFormed : WellFormed sampleR := wellFormed_of (fun q => if q = qNode then 1 else 0) (by decide +kernel)

example (input rd' : List (List Byte)) (u : Val) (h : Deserializes (demo true) sample sampleR input (.value u rd'))
    (hn : u ≠ .union 0 none) :=
  reencoded_partial sample_suited sample_wellFormed.grounded (demo_delivers true) sampleR_wellFormed sampleR_short
    (sampleR_defaults 0 true) h hn

/-- Input that is no encoding is also put right: the over-long form of 5 is written as one octet. -/
example : wire (one qFlag [{ name := "n".toList, ty := .long }]) true .rev (.record [.long 5]) = [10] := by decide +kernel

end

/-- C84: what the declared defaults stand for, as in C69, are values of the types of their fields: `DefaultsTyped` holds. -/
theorem defaults_typed {nm : Namer} {r : Schema} {dv : Field → Val} (hE : EnumsCompile nm r.env) (hF : FieldsApart r.env)
    (hC : ConstructorsReturn nm r.env) (hdv : DefaultsOf nm r.env dv) (hr : Counted r)
    (hm : ∀ q d fs f j, r.env.find q = some d → d.kind = .record fs → f ∈ fs → f.dflt = some j →
      ∃ v, DefaultMeans r.env true j f.ty v ∧ v.Small) :
    ∃ L, DefaultsTyped dv L r.env := by
  have key : ∀ q d fs f, r.env.find q = some d → d.kind = .record fs → f ∈ fs → ∃ L, f.dflt.isSome = true →
      HasTy r.env L (dv f) f.ty := by
    intro q d fs f hq hk hf
    cases hj : f.dflt with
    | none => exact ⟨0, nofun⟩
    | some j =>
      obtain ⟨v, h1, h2⟩ := hm q d fs f j hq hk hf hj
      obtain ⟨i, hi⟩ := List.mem_iff_getElem?.1 hf
      obtain ⟨vs, h3, -, h4⟩ := new_default_partial hE hF hC hq hk
      have h5 := h4 i f j v hi hj h1
      have h6 := hdv q d fs i f vs vs hq hk hi (by rw [hj]; rfl) h3 (set_default_partial hE hF hC hi hj h1 h5)
      rw [h5] at h6
      cases h6
      obtain ⟨L, hL⟩ := means_hasTy hr.enums hr.fields h1 (hr.fields q d fs f hq hk hf) h2
      exact ⟨L, fun _ => hL⟩
  obtain ⟨L, hL⟩ := bound_list (fun L (x : QName × Def) => r.env.find x.1 = some x.2 → ∀ fs f, x.2.kind = .record fs → f ∈ fs →
      f.dflt.isSome = true → HasTy r.env L (dv f) f.ty)
    (fun a n m hn h h1 fs f h2 h3 h4 => hasTy_mono hn _ _ (h h1 fs f h2 h3 h4)) r.env (by
      rintro ⟨q, d⟩ -
      by_cases hq : r.env.find q = some d
      · cases hk : d.kind with
        | record fs =>
          obtain ⟨L, hL⟩ := bound_list (fun L (f : Field) => f.dflt.isSome = true → HasTy r.env L (dv f) f.ty)
            (fun a n m hn h h1 => hasTy_mono hn _ _ (h h1)) fs (fun f hf => key q d fs f hq hk hf)
          exact ⟨L, fun _ fs' f h1 h2 => by cases h1; exact hL f h2⟩
        | _ => exact ⟨0, fun _ fs' f h1 => by cases h1⟩
      · exact ⟨0, fun h => absurd h hq⟩)
  exact ⟨L, fun q d fs f hq hk hf hd => hL (q, d) (Env.find_mem hq) hq fs f hk hf hd⟩

example : ∃ L, DefaultsTyped (demo true).dv L sampleR.env :=
  defaults_typed (nm := .simple) (enums_of (by decide +kernel)) sampleR_wellFormed.apart (returns_of 5 (by decide +kernel))
    (defaultsOf_of 5 (by decide +kernel)) sampleR_short (by
      intro q d fs f j h hk hf hdf
      obtain ⟨rfl, rfl, rfl⟩ := sampleR_node h hk
      simp only [nodeFieldsR, List.mem_cons, List.not_mem_nil, or_false] at hf
      rcases hf with rfl | rfl | rfl | rfl | rfl | rfl | rfl <;> cases hdf
      exact ⟨.int 7, .int (z := 7) (by decide) (by decide), trivial⟩)

end Verif.Props
