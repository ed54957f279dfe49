import Verif.Gen.DefaultProof
import Verif.Props.Resolution
/-
Property C69: the default values that generated code gives to fields are those of the schema.

`DefaultMeans env false j t v` (Spec/Default): by Avro's rules the JSON value `j`, as default of a field of
type `t`, is the value `v`. `DefaultMeans env true` has conditions in addition; Props/DefaultsEx has
what the code does when they are not met.
-/
namespace Verif.Props
open Verif

variable {nm : Namer} {env : Env}

/-- The constructor `NewX` of the record `q` returns a record that holds `vs`. -/
def New (nm : Namer) (env : Env) (q : QName) (vs : List Val) : Prop :=
  ∃ n, construct nm env n (.ref q) = .ok (.record vs)

/-- `SetDefault(i)` turns a record that holds `vs` into one that holds `vs'`. -/
def SetsDefault (nm : Namer) (env : Env) (fs : List Field) (vs : List Val) (i : Nat) (vs' : List Val) : Prop :=
  ∃ n, setDefaultOf nm env n fs vs i = .ok vs'

/-- The property in full: every field that has a default gets it from the constructor. -/
def DefaultsRight (nm : Namer) (env : Env) : Prop :=
  ∀ q d fs (i : Nat) (f : Field) j v, env.find q = some d → d.kind = .record fs → fs[i]? = some f → f.dflt = some j →
    DefaultMeans env false j f.ty v → ∃ vs, New nm env q vs ∧ vs[i]? = some v

/-- What a constructor returns does not depend on anything. -/
theorem New.same {q : QName} {vs vs' : List Val} (h : New nm env q vs) (h' : New nm env q vs') : vs = vs' := by
  obtain ⟨n, h⟩ := h
  obtain ⟨n', h'⟩ := h'
  have e1 := construct_mono h (Nat.le_max_left n n')
  have e2 := construct_mono h' (Nat.le_max_right n n')
  rw [e1] at e2
  cases e2
  rfl

theorem new_record {n : Nat} {q : QName} {d : Def} {fs : List Field} {v : Val} (hq : env.find q = some d)
    (hk : d.kind = .record fs) (h : construct nm env n (.ref q) = .ok v) :
    ∃ vs m, v = .record vs ∧ newFields (construct nm env m) (fun j t => applyDefault nm env m j t true) fs = .ok vs := by
  cases n with
  | zero => simp [construct] at h
  | succ n =>
    simp only [construct, hq, hk] at h
    obtain ⟨vs, h', rfl⟩ := map_ok h
    exact ⟨vs, n, rfl, h'⟩

theorem ready_fresh {m : Nat} {f : Field} {v v0 : Val} (h : freshField (construct nm env m) f = .ok v0) :
    Ready nm env f.ty v (some v0) := by
  unfold freshField at h
  split at h
  · rename_i hnf
    have : ∃ ts, f.ty = .union ts := by
      cases hty : f.ty <;> rw [hty] at hnf <;> first | exact ⟨_, rfl⟩ | cases hnf
    obtain ⟨ts, hts⟩ := this
    rw [hts]; trivial
  · exact ready_construct h

/-- C69, in part: a record's constructor gives every field with a default the value that the default
stands for. Missing: the defaults without the conditions of `DefaultMeans env true`. -/
theorem new_default_partial (hE : EnumsCompile nm env) (hF : FieldsApart env) (hC : ConstructorsReturn nm env)
    {q : QName} {d : Def} {fs : List Field} (hq : env.find q = some d) (hk : d.kind = .record fs) :
    ∃ vs, New nm env q vs ∧ vs.length = fs.length ∧
      ∀ (i : Nat) f j v, fs[i]? = some f → f.dflt = some j → DefaultMeans env true j f.ty v → vs[i]? = some v := by
  obtain ⟨n, v, h⟩ := hC q d fs hq hk
  obtain ⟨vs, m, rfl, hn⟩ := new_record hq hk h
  obtain ⟨hl, hg⟩ := newFields_get hn
  refine ⟨vs, ⟨n, h⟩, hl, fun i f j v hi hd hm => ?_⟩
  obtain ⟨v0, v1, e1, e2, e3⟩ := hg i f hi
  rw [e1]
  unfold fieldDefault at e3
  rw [hd] at e3
  obtain ⟨o, e3, e4⟩ := bind_ok e3
  have := present_ok e4
  subst this
  obtain ⟨N, hN⟩ := apply_means hE hF hC hm
  have e5 := hN (max N m) (Nat.le_max_left _ _) true (some v0) (.inl ⟨rfl, ready_fresh e2⟩)
  rw [apply_mono e3 (Nat.le_max_right N m)] at e5
  cases e5
  rfl

/-- C69, in part: `SetDefault(i)`, on a record that has been constructed or has got this default before,
puts the value of the default into field `i` and changes nothing. -/
theorem set_default_partial (hE : EnumsCompile nm env) (hF : FieldsApart env) (hC : ConstructorsReturn nm env)
    {fs : List Field} {vs : List Val} {i : Nat} {f : Field} {j : Json} {v : Val} (hi : fs[i]? = some f)
    (hd : f.dflt = some j) (hm : DefaultMeans env true j f.ty v) (hv : vs[i]? = some v) :
    SetsDefault nm env fs vs i vs := by
  obtain ⟨N, hN⟩ := apply_means hE hF hC hm
  refine ⟨N, ?_⟩
  have e := hN N (Nat.le_refl _) true (some v) (.inl ⟨rfl, ready_self hm⟩)
  unfold setDefaultOf
  rw [hi]
  dsimp only
  rw [hd]
  dsimp only
  have e' : onField (applyDefault nm env N j f.ty true) vs[i]? = .ok v := by
    rw [hv]; show (applyDefault nm env N j f.ty true (some v) >>= present) = _
    rw [ok_bind e]; rfl
  rw [ok_bind e']
  show Except.ok (vs.set i v) = Except.ok vs
  congr 1
  obtain ⟨h1, h2⟩ := List.getElem?_eq_some_iff.1 hv
  rw [← h2]
  exact List.set_getElem_self h1

/-- C69, in part: for the types that are set by one assignment, `SetDefault(i)` puts the value of the
default into field `i` of any record and leaves the other fields. -/
theorem set_default_any_partial (hE : EnumsCompile nm env) (hF : FieldsApart env) (hC : ConstructorsReturn nm env)
    {fs : List Field} {vs : List Val} {i : Nat} {f : Field} {j : Json} {v : Val} (hi : fs[i]? = some f)
    (hd : f.dflt = some j) (hm : DefaultMeans env true j f.ty v) (ht : InMap env f.ty) (hl : vs.length = fs.length) :
    SetsDefault nm env fs vs i (vs.set i v) := by
  obtain ⟨N, hN⟩ := apply_means hE hF hC hm
  refine ⟨N, ?_⟩
  unfold setDefaultOf
  rw [hi]
  dsimp only
  rw [hd]
  dsimp only
  have hlt : i < vs.length := hl ▸ (List.getElem?_eq_some_iff.1 hi).1
  have e' : onField (applyDefault nm env N j f.ty true) vs[i]? = .ok v := by
    rw [List.getElem?_eq_getElem hlt]; show (applyDefault nm env N j f.ty true (some vs[i]) >>= present) = _
    rw [ok_bind (hN N (Nat.le_refl _) true _ (.inr ht))]; rfl
  rw [ok_bind e']
  rfl

/-- The defaults that the model of the decoder uses are those that `SetDefault` sets on new records. -/
def DefaultsOf (nm : Namer) (env : Env) (dv : Field → Val) : Prop :=
  ∀ q d fs (i : Nat) f vs vs', env.find q = some d → d.kind = .record fs → fs[i]? = some f → f.dflt.isSome →
    New nm env q vs → SetsDefault nm env fs vs i vs' → vs'[i]? = some (dv f)

/-- C69, in part: in a record decoded from data whose schema has no such field, the field has the value
of its default. -/
theorem missing_field_default_partial {R : Type} {σ : Setting R} {view : R → List Byte} {w r : Schema} {d : Datum}
    {rd rd' : R} {rest : List Byte} (hE : EnumsCompile nm r.env) (hF : FieldsApart r.env) (hC : ConstructorsReturn nm r.env)
    (hdv : DefaultsOf nm r.env σ.dv) (h : Reading σ view w r d rd rest) {u : Val}
    (hu : Deserializes σ w r rd (.value u rd')) {p ds q q'}
    (hp : Sees w.env r.env d w.root r.root p (.record ds) (.ref q) (.ref q')) :
    ∃ wd rrd wfs rfs vs, w.env.find q = some wd ∧ wd.kind = .record wfs ∧ r.env.find q' = some rrd ∧
      rrd.kind = .record rfs ∧ u.at p = some (.record vs) ∧
      ∀ (i : Nat) (f : Field) (j : Json) (v : Val), rfs[i]? = some f → (∀ wf ∈ wfs, ¬f.answers wf.name) →
        f.dflt = some j → DefaultMeans r.env true j f.ty v → vs[i]? = some v := by
  obtain ⟨wd, rrd, wfs, rfs, vs, h1, h2, h3, h4, h5, -, -, h6⟩ := fields_by_name h hu hp
  refine ⟨wd, rrd, wfs, rfs, vs, h1, h2, h3, h4, h5, fun i f j v hi hno hd hm => ?_⟩
  obtain ⟨-, e⟩ := h6 i f hi hno
  obtain ⟨ns, hn, -, hg⟩ := new_default_partial hE hF hC h3 h4
  have hv := hg i f j v hi hd hm
  have := hdv q' rrd rfs i f ns ns h3 h4 hi (by rw [hd]; rfl) hn (set_default_partial hE hF hC hi hd hm hv)
  rw [e, ← this, hv]

/-- By Avro's rules a default stands for one value at most. -/
theorem default_unique {lim lim' : Bool} {j : Json} {t : Ty} {v v' : Val} (hS : SymbolsApart env)
    (h : DefaultMeans env lim j t v) (h' : DefaultMeans env lim' j t v') : v = v' := by
  induction h generalizing v' with
  | null => cases h'; rfl
  | bool => cases h'; rfl
  | int => cases h'; rfl
  | long => cases h'; rfl
  | float h1 h2 _ =>
    cases h' with
    | float g1 g2 _ =>
      rw [h1] at g1; cases g1
      have e1 := Near.const (by decide) (by decide) (number_pos h1) h2
      have e2 := Near.const (by decide) (by decide) (number_pos h1) g2
      rw [e1] at e2
      rw [Option.some.inj e2]
  | double h1 h2 =>
    cases h' with
    | double g1 g2 =>
      rw [h1] at g1; cases g1
      have e1 := Near.const (by decide) (by decide) (number_pos h1) h2
      have e2 := Near.const (by decide) (by decide) (number_pos h1) g2
      rw [e1] at e2
      rw [Option.some.inj e2]
  | bytes => cases h'; rfl
  | string => cases h'; rfl
  | enum h1 h2 h3 =>
    cases h' with
    | enum g1 g2 g3 =>
      rw [h1] at g1; cases g1
      rw [h2] at g2; cases g2
      rw [(List.getElem?_inj (List.getElem?_eq_some_iff.1 h3).1 (hS _ _ _ _ h1 h2)).1 (h3.trans g3.symm)]
    | fixed g1 g2 => rw [h1] at g1; cases g1; rw [h2] at g2; cases g2
  | fixed h1 h2 =>
    cases h' with
    | enum g1 g2 => rw [h1] at g1; cases g1; rw [h2] at g2; cases g2
    | fixed => rfl
  | array hl _ ih =>
    cases h' with
    | array hl' hm' =>
      congr 1
      apply List.ext_getElem (by omega)
      intro i hi hi'
      exact ih i _ _ (List.getElem?_eq_getElem (by omega)) (List.getElem?_eq_getElem hi)
        (hm' i _ _ (List.getElem?_eq_getElem (by omega)) (List.getElem?_eq_getElem hi'))
  | @map kvs t vs _ hl _ _ ih =>
    cases h' with
    | @map _ _ vs' _ hl' hm' _ =>
      have : vs = vs' := by
        apply List.ext_getElem (by omega)
        intro i hi hi'
        exact ih i _ _ (List.getElem?_eq_getElem (by omega)) (List.getElem?_eq_getElem hi)
          (hm' i _ _ (List.getElem?_eq_getElem (by omega)) (List.getElem?_eq_getElem hi'))
      rw [this]
  | unionNull h1 =>
    cases h' with
    | unionNull => rfl
    | union g1 g2 => rw [h1] at g1; cases g1; exact absurd rfl g2
  | union h1 h2 _ ih =>
    cases h' with
    | unionNull g1 => rw [h1] at g1; cases g1; exact absurd rfl h2
    | union g1 g2 g3 => rw [h1] at g1; cases g1; rw [ih g3]
  | record h1 h2 _ _ hl hs _ _ ih =>
    cases h' with
    | record g1 g2 _ _ hl' _ hm' _ =>
      rw [h1] at g1; cases g1
      rw [h2] at g2; cases g2
      congr 1
      apply List.ext_getElem (by omega)
      intro i hi hi'
      obtain ⟨j, hj⟩ := Option.isSome_iff_exists.1 (hs _ (List.getElem_mem (by omega : i < _)))
      exact ih i _ _ j (List.getElem?_eq_getElem (by omega)) (List.getElem?_eq_getElem hi) hj
        (hm' i _ _ j (List.getElem?_eq_getElem (by omega)) (List.getElem?_eq_getElem hi') hj)

end Verif.Props
