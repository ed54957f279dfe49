import Verif.Generic.ExactSelf
import Verif.Gen.WellFormed
/-
`generic.Codec`: compile, then evaluate on a fresh datum, then take its value. What it does in
terms of `parse`, `resolve` and `showDatum`.
-/
namespace Verif
set_option linter.unusedSimpArgs false
set_option linter.unusedVariables false

/-- How `NewCodec(w, r)` followed by `Deserialize` ends. -/
inductive GRes (R : Type) where
  /-- `NewCodec` returned an error -/
  | refused
  /-- `Deserialize` returned an error -/
  | failed
  /-- a nil error, the value, and what is left of the input -/
  | value (g : GVal) (rd : R)
  /-- `Deserialize` panicked: in `datum.Datum()`, where nothing recovers -/
  | panics

/-- `NewCodec(writer, reader)` and `Deserialize(r)`, v10/generic/serde.go:30-49: `w` and `r`
are the parsed schemas. `σ.dv` is not used. -/
inductive GDeserializes {R : Type} (σ : Setting R) (w r : Schema) (rd : R) : GRes R → Prop
  | refused {e} : compile σ.ord false w r = .error e → GDeserializes σ w r rd .refused
  | failed {prog e} : compile σ.ord false w r = .ok prog →
      Evaluates σ.ro (gOps r.env σ.lim) prog rd (.new r.env r.root) (.error e) → GDeserializes σ w r rd .failed
  | value {prog rd' t g} : compile σ.ord false w r = .ok prog →
      Evaluates σ.ro (gOps r.env σ.lim) prog rd (.new r.env r.root) (.ok (rd', t)) →
      t.datum = some g → GDeserializes σ w r rd (.value g rd')
  | panics {prog rd' t} : compile σ.ord false w r = .ok prog →
      Evaluates σ.ro (gOps r.env σ.lim) prog rd (.new r.env r.root) (.ok (rd', t)) →
      t.datum = none → GDeserializes σ w r rd .panics

/-- Conditions on a pair of schemas: those of `Sound`, the fields of a reader's record have
different names, and enums have no more symbols than an `int32` can number. -/
structure GSuited (w r : Schema) : Prop extends Sound w r where
  fields : FieldsOK r.env
  enums : EnumsOK r.env

theorem GDeserializes.det {R : Type} {σ : Setting R} {w r : Schema} {rd : R} {a b : GRes R}
    (ha : GDeserializes σ w r rd a) (hb : GDeserializes σ w r rd b) : a = b := by
  cases ha with
  | refused h => cases hb with
    | refused => rfl
    | failed h' => rw [h] at h'; cases h'
    | value h' => rw [h] at h'; cases h'
    | panics h' => rw [h] at h'; cases h'
  | failed h he => cases hb with
    | refused h' => rw [h] at h'; cases h'
    | failed h' => rfl
    | value h' he' => rw [h] at h'; cases h'; cases he.det he'
    | panics h' he' => rw [h] at h'; cases h'; cases he.det he'
  | value h he hv => cases hb with
    | refused h' => rw [h] at h'; cases h'
    | failed h' he' => rw [h] at h'; cases h'; cases he.det he'
    | value h' he' hv' => rw [h] at h'; cases h'; cases he.det he'; rw [hv] at hv'; cases hv'; rfl
    | panics h' he' hv' => rw [h] at h'; cases h'; cases he.det he'; rw [hv] at hv'; cases hv'
  | panics h he hv => cases hb with
    | refused h' => rw [h] at h'; cases h'
    | failed h' he' => rw [h] at h'; cases h'; cases he.det he'
    | value h' he' hv' => rw [h] at h'; cases h'; cases he.det he'; rw [hv] at hv'; cases hv'
    | panics h' => rfl

theorem gOps_defaultsCommute (re : Env) (lim : Nat) : DefaultsCommute (gOps re lim) := by
  intro t i j
  simp only [gOps]
  by_cases hij : i = j
  · subst hij; rfl
  cases t with
  | record fs slots =>
    have key : ∀ i : Int, (∀ s, gSetDefault (.record fs s) i = .error .panic) ∨
        (0 ≤ i ∧ ∃ v, ∀ s, gSetDefault (.record fs s) i = .ok (.record fs (s.set i.toNat (some v)))) := by
      intro i
      by_cases h0 : i < 0
      · exact .inl fun s => by simp [gSetDefault, h0]
      · cases hf : fs[i.toNat]? with
        | none => exact .inl fun s => by simp [gSetDefault, h0, hf]
        | some f => exact .inr ⟨by omega, (match f.dflt with
          | none => .nil
          | some j => .json j), fun s => by simp only [gSetDefault, if_neg h0, hf] <;> rfl⟩
    rcases key i with he | ⟨hi, v, hv⟩ <;> rcases key j with he' | ⟨hj, v', hv'⟩
    · simp only [he, he', Except.bind]
    · simp only [he, hv', Except.bind]
    · simp only [hv, he', Except.bind]
    · simp only [hv, hv', Except.bind]
      rw [List.set_comm]
      omega
  | _ => rfl

section
variable {R : Type} {σ : Setting R} {view : R → List Byte} {w r : Schema}

/-- What `Deserialize` returns for a datum: `showDatum`, but for a null at the root, on which
it panics. -/
def rootShow (we re : Env) (d : Datum) (w r : Ty) : Option GVal :=
  if d.isNil then none else showDatum we re d w r

/-- The result that belongs to a value, or to none. -/
def GRes.of {R : Type} (rd : R) : Option GVal → GRes R
  | some g => .value g rd
  | none => .panics

theorem gdeserialize_value (hs : GSuited w r) {prog} (hc : compile σ.ord false w r = .ok prog)
    {n : Nat} {rd rd' : R} {d : Datum} (hp : parse σ.ro σ.lim w.env n w.root rd = .done (d, rd'))
    (hv : (resolve Datum.skippable σ.dv w.env r.env d w.root r.root).isSome = true) :
    GDeserializes σ w r rd (.of rd' (rootShow w.env r.env d w.root r.root)) := by
  obtain ⟨main, st, h1, h2⟩ := compile_ok hc
  obtain ⟨hcol, hnn⟩ := hs.toSound.clean h1
  have hF : GFair w.env r.env := ⟨hs.sizes, hs.tidyW, hs.tidyR, hs.fields⟩
  obtain ⟨t', h3, h4, h5⟩ := gmain_agree (ro := σ.ro) (lim := σ.lim) (dv := σ.dv) hF hs.enums n w.root r.root (2 * n)
    (Nat.le_refl _) hs.rootW ⟨hs.rootR, hs.nulls⟩ rd d rd' hp hv
  have hrun := run_compiled σ.ro (gOps r.env σ.lim) hs.namesW hs.namesR hs.sizes (gOps_defaultsCommute _ _) h1 hcol hnn h2 (2 * n) rd
    (.new r.env r.root)
  have he := hrun.1 _ _ _ h3
  unfold rootShow
  cases hd : d.isNil with
  | true =>
    obtain ⟨rfl, hn⟩ := h5 hd
    simp only [if_true, GRes.of]
    refine .panics hc he ?_
    cases hr : r.root <;> rw [hr] at hn <;> simp [Ty.nullable] at hn
    simp [GTgt.new, GTgt.datum]
  | false =>
    simp only [Bool.false_eq_true, if_false]
    have : t'.datum = showDatum w.env r.env d w.root r.root := h4 hd
    cases ht : showDatum w.env r.env d w.root r.root with
    | none => exact .panics hc he (by rw [this, ht])
    | some g => exact .value hc he (by rw [this, ht])

theorem goutcome_value (hs : GSuited w r) (hd : σ.ro.Delivers view) {prog} (hc : compile σ.ord false w r = .ok prog)
    {rd : R} {d z} (hp : ReadsAs σ.ro.byteReader σ.lim w.env w.root (view rd) (some (d, z)))
    (hv : (resolve Datum.skippable σ.dv w.env r.env d w.root r.root).isSome = true) :
    ∃ rd', GDeserializes σ w r rd (.of rd' (rootShow w.env r.env d w.root r.root)) ∧ view rd' = z := by
  obtain ⟨n, hn⟩ := hp
  obtain ⟨rd', h1, h2⟩ := parse_view hd hn
  exact ⟨rd', gdeserialize_value hs hc h1 hv, h2⟩
end
end Verif
