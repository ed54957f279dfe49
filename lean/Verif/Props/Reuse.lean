import Verif.Gen.Reuse
import Verif.Props.ResolutionEx
import Verif.Props.DefaultsEx
import Verif.Props.Compiler
/-
Properties C21 and C60 for variables that already hold a value: `vm.Eval(reader, program, &x)`
with an `x` that was used before.

* `DeserializesInto σ old w r v0 rd res`: as `Deserializes`, but the program is run on a variable
  that holds `v0`, not on a new one. `old f u` is what `SetDefault` leaves in the field `f` when it
  held `u`.
* `HoldsVal r v0`: `v0` is a record with a value for each field, or a union with one of its members, as the root of `r` says.
-/
namespace Verif.Props
open Verif
set_option linter.unusedVariables false

section
variable {R : Type} {σ : Setting R} {view : R → List Byte} {w r : Schema}
  {old : Field → Val → Val}

/-- A default replaces what a field held. -/
def DefaultsReplace (σ : Setting R) (old : Field → Val → Val) : Prop :=
  ∀ f u, f.dflt.isSome = true → old f u = σ.dv f

/-- The field is one of a record of the schema. -/
def FieldIn (env : Env) (f : Field) : Prop :=
  ∃ q d fs, ∃ i : Nat, env.find q = some d ∧ d.kind = .record fs ∧ fs[i]? = some f

/-- `old` is what the generated `SetDefault` does: on the fields of the schema it leaves `old f u`
in a field that held `u`. (Fields that the schema does not have are of no interest.) -/
structure DefaultsOver (nm : Namer) (env : Env) (σ : Setting R) (old : Field → Val → Val) : Prop where
  sets : ∀ q d fs (i : Nat) f u vs vs', env.find q = some d → d.kind = .record fs → fs[i]? = some f → f.dflt.isSome →
    vs[i]? = some u → SetsDefault nm env fs vs i vs' → vs'[i]? = some (old f u)
  others : ∀ f u, ¬ FieldIn env f → old f u = σ.dv f

/-- There is such an `old`: what `SetDefault` leaves in a field depends on that field only. -/
theorem defaults_over (nm : Namer) (env : Env) (σ : Setting R) : ∃ old, DefaultsOver nm env σ old := by
  classical
  refine ⟨fun f u => if h : FieldIn env f ∧ ∃ n v, ∃ j, f.dflt = some j ∧ applyDefault nm env n j f.ty true (some u) = .ok (some v)
    then h.2.choose_spec.choose else σ.dv f, ?_, fun f u h => dif_neg fun h' => h h'.1⟩
  intro q d fs i f u vs vs' h1 h2 h3 h4 h5 ⟨n, h6⟩
  obtain ⟨j, hj⟩ := Option.isSome_iff_exists.1 h4
  unfold setDefaultOf at h6
  rw [h3] at h6
  dsimp only at h6
  rw [hj] at h6
  dsimp only at h6
  rw [h5] at h6
  change ((applyDefault nm env n j f.ty true (some u) >>= present) >>= fun v => pure (vs.set i v)) = .ok vs' at h6
  cases ha : applyDefault nm env n j f.ty true (some u) with
  | error e => rw [ha] at h6; cases h6
  | ok o =>
    rw [ha] at h6
    cases o with
    | none => cases h6
    | some v =>
      have e : vs' = vs.set i v := by cases h6; rfl
      have hex : FieldIn env f ∧ ∃ n v, ∃ j, f.dflt = some j ∧ applyDefault nm env n j f.ty true (some u) = .ok (some v) :=
        ⟨⟨q, d, fs, i, h1, h2, h3⟩, n, v, j, hj, ha⟩
      obtain ⟨hlt, _⟩ := List.getElem?_eq_some_iff.1 h5
      rw [e, List.getElem?_set_self hlt, dif_pos hex]
      obtain ⟨j', hj', ha'⟩ := hex.2.choose_spec.choose_spec
      rw [hj] at hj'
      cases hj'
      have e1 := apply_mono ha (Nat.le_max_left n hex.2.choose)
      have e2 := apply_mono ha' (Nat.le_max_right n hex.2.choose)
      rw [e1] at e2
      cases e2
      rfl

/-- When the fields with defaults have types that are set by one assignment, a default replaces what
the field held. -/
theorem defaults_replace {nm : Namer} {env : Env} (hE : EnumsCompile nm env) (hF : FieldsApart env) (hC : ConstructorsReturn nm env)
    (hn : DefaultsOf nm env σ.dv) (ho : DefaultsOver nm env σ old)
    (ht : ∀ f j, FieldIn env f → f.dflt = some j → InMap env f.ty ∧ ∃ v, DefaultMeans env true j f.ty v) :
    DefaultsReplace σ old := by
  intro f u hs
  by_cases hin : FieldIn env f
  · obtain ⟨j, hj⟩ := Option.isSome_iff_exists.1 hs
    obtain ⟨hm, v, hv⟩ := ht f j hin hj
    obtain ⟨q, d, fs, i, h1, h2, h3⟩ := hin
    obtain ⟨ns, hnew, hl, -⟩ := new_default_partial hE hF hC h1 h2
    obtain ⟨hlt, _⟩ := List.getElem?_eq_some_iff.1 h3
    have e1 := hn q d fs i f ns _ h1 h2 h3 hs hnew (set_default_any_partial hE hF hC (vs := ns) h3 hj hv hm hl)
    have e2 := ho.sets q d fs i f u (List.replicate fs.length u) _ h1 h2 h3 hs (by simp [hlt])
      (set_default_any_partial hE hF hC h3 hj hv hm (by simp))
    rw [List.getElem?_set_self (by simpa using hlt)] at e2
    rw [List.getElem?_set_self (by omega)] at e1
    rw [← Option.some.inj e1, ← Option.some.inj e2]
  · exact ho.others f u hin

/-- The outcome is null at the root, of which `DeserializeXFromSchema` makes a union without a
member (`root_null_not_restored`). -/
def NullAtRoot (res : Res R) : Prop := ∃ rd', res = .value (.union 0 none) rd'

/-- C21, C60: what is read into a variable does not depend on what it held before. Except for
null at the root, see `reused_union_stale`. -/
theorem reused_partial (hs : Suited w r) (hg : Grounded w.env) (hd : σ.ro.Delivers view) (ho : DefaultsReplace σ old) {v0 : Val} (h0 : HoldsVal r v0)
    (rd : R) (res : Res R) (h : Deserializes σ w r rd res) (hn : ¬ NullAtRoot res) : DeserializesInto σ old w r v0 rd res := by
  rcases outcome_of hs hg hd h with ⟨rfl, e, he⟩ | ⟨prog, d, v, rd', hc, hr, hv, rfl⟩ | ⟨prog, d, z, hc, hr, hv, rfl⟩ | ⟨prog, hc, hr, rfl⟩
  · exact .refused he
  · obtain ⟨n, hn'⟩ := hr
    obtain ⟨rd1, h1, h2⟩ := parse_view hd hn'
    have hnil : v ≠ .nil := by
      rintro rfl
      exact hn ⟨rd', rfl⟩
    rw [rootVal_ne hnil] at h ⊢
    have := h.det (deserialize_value hs hd.full hc h1 hv hnil)
    cases this
    have := reuse_value hs hd hc h0 ho h1 hv
    rwa [heldVal_ne hnil] at this
  · exact reuse_failed hs hd hc h0 ho (.inr ⟨d, z, hr, hv⟩)
  · exact reuse_failed hs hd hc h0 ho (.inl hr)

/-- C21, C60, for records: reading into a used variable has the outcome of reading into a new
one; nothing of the old content is left. -/
theorem reused_record (hs : Suited w r) (hg : Grounded w.env) (hd : σ.ro.Delivers view) (ho : DefaultsReplace σ old) {v0 : Val}
    (h0 : HoldsVal r v0) (hr : r.root.IsRecord r.env) (rd : R) (res : Res R) :
    DeserializesInto σ old w r v0 rd res ↔ Deserializes σ w r rd res := by
  obtain ⟨res', h1, h2⟩ := outcome_total hs hg hd rd
  have hn : ¬ NullAtRoot res' := by
    rintro ⟨rd', rfl⟩
    obtain ⟨prog, d, v', hc, hr', hv, he⟩ := value_of hs hg hd h1
    obtain ⟨q, df, fs, e1, e2, e3⟩ := hr
    rw [e1] at hv
    obtain ⟨vs, rfl⟩ := resolve_record_shape e2 e3 d _ _ hv
    cases he
  have h3 := reused_partial hs hg hd ho h0 rd res' h1 hn
  exact ⟨fun h => h.det h3 ▸ h1, fun h => h.det h1 ▸ h3⟩

/-- Reading one value after the other into the same variable. -/
inductive DecodesAllInto (σ : Setting R) (old : Field → Val → Val) (w r : Schema) : Val → R → List Val → R → Prop
  | nil {v0 rd} : DecodesAllInto σ old w r v0 rd [] rd
  | cons {v0 rd rd' rd'' v vs} : DeserializesInto σ old w r v0 rd (.value v rd') → DecodesAllInto σ old w r v rd' vs rd'' →
      DecodesAllInto σ old w r v0 rd (v :: vs) rd''

/-- C60: a stream read into one variable gives the values that a new variable for each gives. -/
theorem reused_stream (hs : Suited w r) (hg : Grounded w.env) (hd : σ.ro.Delivers view) (ho : DefaultsReplace σ old)
    (hr : r.root.IsRecord r.env) :
    ∀ {rd rd' : R} {vs : List Val}, DecodesAll σ w r rd vs rd' → ∀ {v0 : Val}, HoldsVal r v0 → DecodesAllInto σ old w r v0 rd vs rd' := by
  intro rd rd' vs h
  induction h with
  | nil => intro v0 _; exact .nil
  | cons h1 _ ih =>
    intro v0 h0
    refine .cons ((reused_record hs hg hd ho h0 hr _ _).2 h1) (ih ?_)
    obtain ⟨prog, d, v', hc, hr', hv, rfl⟩ := value_of hs hg hd h1
    obtain ⟨q, df, fs, e1, e2, e3⟩ := hr
    rw [e1] at hv
    obtain ⟨vs, rfl, hl⟩ := resolve_record_full e2 e3 d _ _ hv
    exact .inl ⟨q, df, fs, vs, e1, e2, e3, rfl, hl⟩
end

/-- Reading `leafVal` into a variable that holds the larger `sampleVal`: its items, entries and
members are gone. -/
example : ∃ rd', DeserializesInto (demo true) (fun f _ => (demo true).dv f) sample sample sampleVal [wire sample true .id leafVal, [3]] (.value leafVal rd') ∧
    rd'.flatten = [3] := by
  obtain ⟨rd', h1, h2⟩ := (roundtrip_partial sample_wellFormed (demo_delivers true) (by decide) true .id leafVal_hasTy
    (by simp [leafVal]) (rd := [wire sample true .id leafVal, [3]]) (rest := [3]) (by simp)).2
  exact ⟨rd', (reused_record sample_wellFormed.suited sample_wellFormed.grounded (demo_delivers true)
    (fun _ _ _ => rfl) (.inl ⟨_, _, _, _, rfl, rfl, rfl, rfl, rfl⟩) ⟨_, _, _, rfl, rfl, rfl⟩ _ _).2 h1, h2⟩

example : ∃ rd', DecodesAllInto (demo true) (fun f _ => (demo true).dv f) sample sample leafVal [wire sample true .id sampleVal, wire sample true .rev leafVal ++ [9]]
    [sampleVal, leafVal] rd' ∧ rd'.flatten = [9] := by
  obtain ⟨rd', h1, h2⟩ := stream_partial sample_wellFormed (demo_delivers true) (by decide) true [(.id, sampleVal), (.rev, leafVal)]
    (by
      intro x hx
      simp only [List.mem_cons, List.not_mem_nil, or_false] at hx
      rcases hx with rfl | rfl
      · exact ⟨sampleVal_hasTy, by simp [sampleVal]⟩
      · exact ⟨leafVal_hasTy, by simp [leafVal]⟩)
    (rd := [wire sample true .id sampleVal, wire sample true .rev leafVal ++ [9]]) (rest := [9]) (by simp)
  exact ⟨rd', reused_stream sample_wellFormed.suited sample_wellFormed.grounded (demo_delivers true) (fun _ _ _ => rfl) ⟨_, _, _, rfl, rfl, rfl⟩ h1
    (.inl ⟨_, _, _, _, rfl, rfl, rfl, rfl, rfl⟩), h2⟩

/-- What is missing in `reused_partial`, and false: null at the root. For `["null","int"]`,
reading null into a variable that holds 5 returns no error and leaves 5. -/
theorem reused_union_stale {R : Type} {σ : Setting R} {view : R → List Byte} (hd : σ.ro.Delivers view) (hl : σ.lim < 2 ^ 63)
    {old : Field → Val → Val} (ho : DefaultsReplace σ old) {rd : R} {rest : List Byte} (hin : view rd = 0 :: rest) :
    Enc optInt.env (.union 0 .null) optInt.root [0] ∧
    ∃ rd', DeserializesInto σ old optInt optInt (.union 1 (some (.int 5))) rd (.value (.union 1 (some (.int 5))) rd') ∧ view rd' = rest := by
  have he : Enc optInt.env (.union 0 .null) optInt.root [0] := encode_enc (by decide +kernel)
  refine ⟨he, ?_⟩
  obtain ⟨prog, hc⟩ := optInt_wellFormed.compiles σ.ord
  have hr := reads_enc (k := σ.ro.byteReader) hl he ⟨by decide, trivial⟩ rest
  obtain ⟨n, hn⟩ := (show ReadsAs σ.ro.byteReader σ.lim optInt.env optInt.root (view rd) (some (.union 0 .null, rest)) from hin ▸ hr)
  obtain ⟨rd', h1, h2⟩ := parse_view hd hn
  exact ⟨rd', reuse_value (v := .nil) optInt_wellFormed.suited hd hc (.inr ⟨_, _, _, rfl, rfl, by decide⟩) ho h1 (by with_unfolding_all rfl), h2⟩

/-- A record with one field, an int with the default 7: the old content does not matter. -/
example {R : Type} {σ : Setting R} {old : Field → Val → Val} (hn : DefaultsOf .simple (oneEnv .int (.num 7)) σ.dv)
    (ho : DefaultsOver .simple (oneEnv .int (.num 7)) σ old) : DefaultsReplace σ old := by
  refine defaults_replace (enums_of (by decide +kernel))
    (wellFormed_of (s := ⟨oneEnv .int (.num 7), .ref qD⟩) (fun _ => 0) (by decide +kernel)).apart
    (returns_of 5 (by decide +kernel)) hn ho ?_
  rintro f j ⟨q, d, fs, i, h1, h2, h3⟩ hj
  obtain ⟨rfl, rfl⟩ : q = qD ∧ d = ⟨qD, [], .record [fldD "x" .int (.num 7)]⟩ := by
    have := Env.find_mem h1
    simp only [oneEnv, List.map_nil, List.mem_cons, Prod.mk.injEq, List.not_mem_nil, or_false] at this
    exact this
  cases h2
  match i with
  | 0 =>
    cases h3
    cases hj
    exact ⟨.int, _, .int (z := 7) (by decide) (by decide)⟩
  | i + 1 => cases h3

example : DefaultsOf .simple (oneEnv .int (.num 7)) (fun _ => .int 7) := defaultsOf_of 5 (by decide +kernel)

def bareD : Schema := { root := .ref qD, env := [(qD, { name := qD, kind := .record [] })] }
def mapFld : Field := fldD "x" (.map .bool) (kv "b" (.bool false))
def mapField : Schema := { root := .ref qD, env := [(qD, { name := qD, kind := .record [mapFld] })] }

/-- What `DefaultsReplace` asks for, and is false for maps: a field of type map with the default
`{"b": false}`, which the data does not have. In a variable that held `{"a": true}` there, the entry
`a` is still there afterwards. -/
theorem reused_map_default_merged {R : Type} {σ : Setting R} {old : Field → Val → Val}
    (ho : DefaultsOver .simple mapField.env σ old) (rd : R) :
    DeserializesInto σ old bareD mapField (.record [.map [(txt "a", .bool true)]]) rd
      (.value (.record [.map [(txt "a", .bool true), (txt "b", .bool false)]]) rd) ∧
    (DefaultsOf .simple mapField.env σ.dv → σ.dv mapFld = .map [(txt "b", .bool false)]) := by
  constructor
  · have hset : SetsDefault .simple mapField.env [mapFld] [.map [(txt "a", .bool true)]] 0
        [.map [(txt "a", .bool true), (txt "b", .bool false)]] := ⟨5, by with_unfolding_all rfl⟩
    have he := ho.sets qD _ [mapFld] 0 mapFld _ _ _ rfl rfl rfl rfl rfl hset
    simp only [List.getElem?_cons_zero, Option.some.injEq] at he
    have hs : Suited bareD mapField := suited_of (by decide +kernel)
    obtain ⟨prog, hc⟩ : ∃ prog, compile σ.ord false bareD mapField = .ok prog := by
      cases hc : compile σ.ord false bareD mapField with
      | ok prog => exact ⟨prog, rfl⟩
      | error e =>
        have := (refused_iff hs .id).2 ((refused_iff hs σ.ord).1 ⟨e, hc⟩)
        obtain ⟨p, hp⟩ := compiles_of (n := 9) (w := bareD) (r := mapField) (by decide +kernel)
        obtain ⟨e, he⟩ := this
        rw [hp] at he; cases he
    obtain ⟨main, st, h1, h2⟩ := compile_ok hc
    obtain ⟨hcol, hnn⟩ := hs.toSound.clean h1
    have hrun := (run_compiled σ.ro _ hs.namesW hs.namesR hs.sizes (genOpsOn_defaultsCommute mapField.env σ.lim σ.dv old)
      h1 hcol hnn h2 5 rd (.holding mapField.env mapField.root (.record [.map [(txt "a", .bool true)]]))).1
    exact .value hc (hrun _ _ _ (by with_unfolding_all rfl)) (by rw [he]; with_unfolding_all rfl)
  · intro h
    have := h qD _ [mapFld] 0 mapFld [.map [(txt "b", .bool false)]] [.map [(txt "b", .bool false)]] rfl rfl rfl rfl
      ⟨5, by with_unfolding_all rfl⟩ ⟨5, by with_unfolding_all rfl⟩
    simpa using this.symm
end Verif.Props
