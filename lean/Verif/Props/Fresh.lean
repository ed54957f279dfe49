import Verif.Props.Defaults
import Verif.Props.Reencode
import Verif.Gen.DefaultTyped
import Verif.Spec.Fresh
/-
C92: a record that its constructor returned can be encoded as it is.
-/
namespace Verif.Props
open Verif Spec
set_option linter.unusedVariables false

variable {nm : Namer} {env : Env}

theorem isNull_iff {t : Ty} : t.isNull = true ↔ t = .null := by cases t <;> simp [Ty.isNull]

/-- C92: what the fields without default hold in a record from its constructor. -/
theorem fresh_values {q : QName} {d : Def} {fs : List Field} {vs : List Val} (hq : env.find q = some d)
    (hk : d.kind = .record fs) (h : New nm env q vs) :
    vs.length = fs.length ∧ ∀ (i : Nat) f, fs[i]? = some f → f.dflt = none →
      ∃ v, vs[i]? = some v ∧ Initial env (New nm env) f.ty v := by
  obtain ⟨n, h⟩ := h
  obtain ⟨vs', m, e, hn⟩ := new_record hq hk h
  cases e
  obtain ⟨hl, hg⟩ := newFields_get hn
  refine ⟨hl, fun i f hi hd => ?_⟩
  obtain ⟨v0, v, e1, e2, e3⟩ := hg i f hi
  unfold fieldDefault at e3
  rw [hd] at e3
  cases e3
  refine ⟨v0, e1, ?_⟩
  unfold freshField at e2
  by_cases hnf : f.ty.nullFirst = true
  · rw [if_pos hnf] at e2
    cases e2
    cases hty : f.ty with
    | union ts =>
      rw [hty] at hnf
      cases ts with
      | nil => cases hnf
      | cons t ts => exact .nil (by rw [isNull_iff.1 hnf]; rfl)
    | _ => rw [hty] at hnf; cases hnf
  · rw [if_neg hnf] at e2
    cases m with
    | zero => cases e2
    | succ m =>
      unfold construct at e2
      cases hty : f.ty with
      | union ts =>
        rw [hty] at e2 hnf
        cases e2
        refine .union ?_
        cases ts with
        | nil => simp
        | cons t ts =>
          intro e
          cases e
          exact hnf rfl
      | ref q' =>
        rw [hty] at e2
        simp only at e2
        cases hq' : env.find q' with
        | none => rw [hq'] at e2; cases e2
        | some d' =>
          rw [hq'] at e2
          simp only at e2
          cases hk' : d'.kind with
          | record fs' =>
            rw [hk'] at e2
            obtain ⟨ws, e4, rfl⟩ := map_ok e2
            exact .record hq' hk' ⟨m + 1, by simp only [construct, hq', hk', e4]; rfl⟩
          | enum ss e =>
            rw [hk'] at e2
            cases e2
            simp only [zeroVal, hq', hk']
            exact .enum hq' hk'
          | fixed n =>
            rw [hk'] at e2
            cases e2
            simp only [zeroVal, hq', hk']
            exact .fixed hq' hk'
      | _ => rw [hty] at e2; cases e2; first | exact .null | exact .bool | exact .int | exact .long | exact .float | exact .double | exact .bytes | exact .string | exact .array | exact .map

/-- What is asked of a schema: names are defined, no union and no enum is empty, sizes are not negative and not too
many members are counted (`Closed`, `SizesOK`, `short`). -/
structure Buildable (env : Env) : Prop where
  closed : FieldsClosed env
  sizes : SizesOK env
  counted : EnumsOK env
  short : ∀ q d fs f, env.find q = some d → d.kind = .record fs → f ∈ fs → f.ty.short = true
  symbols : ∀ q d ss e, env.find q = some d → d.kind = .enum ss e → ss ≠ []
  sized : Sized env

theorem zero_exists (h : Buildable env) {rank : QName → Nat}
    (hr : ∀ q d fs f q', env.find q = some d → d.kind = .record fs → f ∈ fs → ByValue f.ty q' → rank q' < rank q)
    (N : Nat) (t : Ty) (hN : ∀ q, ByValue t q → rank q < N) (hc : t.Closed env) (hs : t.short = true) :
    ∃ v, Zero env t v ∧ HasTy env 0 v t := by
  match t, hN, hc, hs with
  | .null, _, _, _ => exact ⟨_, .null, rfl⟩
  | .bool, _, _, _ => exact ⟨_, .bool, rfl⟩
  | .int, _, _, _ => exact ⟨_, .int, rfl⟩
  | .long, _, _, _ => exact ⟨_, .long, rfl⟩
  | .float, _, _, _ => exact ⟨_, .float, rfl⟩
  | .double, _, _, _ => exact ⟨_, .double, rfl⟩
  | .bytes, _, _, _ => exact ⟨_, .bytes, rfl, by simp⟩
  | .string, _, _, _ => exact ⟨_, .string, rfl, by simp⟩
  | .array t, _, _, _ => exact ⟨_, .array, t, rfl, by simp, trivial⟩
  | .map t, _, _, _ => exact ⟨_, .map, t, rfl, by simp, by simp [Verif.Sorted], trivial⟩
  | .union [], _, hc, _ => exact absurd rfl hc.1
  | .union (t :: ts), hN, hc, hs =>
    simp only [Ty.short, Bool.and_eq_true, decide_eq_true_eq] at hs
    by_cases hn : .null ∈ t :: ts
    · refine ⟨.nil, .pointer hn, t :: ts, rfl, ?_, hs.1⟩
      exact List.any_eq_true.2 ⟨_, hn, rfl⟩
    · have hne : ∀ u ∈ t :: ts, u ≠ .null := fun u hu e => hn (e ▸ hu)
      obtain ⟨v, h1, h2⟩ := zero_exists h hr N t (fun q hb => hN q (.union hne (by simp) hb)) hc.2.2.1 (by
        have := hs.2
        simp only [Ty.allShort, Bool.and_eq_true] at this
        exact this.1)
      refine ⟨_, .union hn h1, t :: ts, t, rfl, rfl, hs.1, ?_, h2⟩
      have := hne t (by simp)
      cases t <;> first | rfl | exact absurd rfl this
  | .ref q, hN, hc, _ =>
    obtain ⟨d, hd⟩ := hc
    cases hk : d.kind with
    | enum ss e =>
      refine ⟨_, .enum hd hk, q, d, ss, e, rfl, hd, hk, by decide, ?_⟩
      have := h.symbols q d ss e hd hk
      have : 0 < ss.length := List.length_pos_iff.2 this
      simpa using this
    | fixed n =>
      refine ⟨_, .fixed hd hk, q, d, rfl, hd, ?_⟩
      have := h.sizes q d n hd hk
      rw [hk, List.length_replicate, Int.toNat_of_nonneg this]
    | record fs =>
      match N, hN with
      | 0, hN => exact absurd (hN q .ref) (by omega)
      | N + 1, hN =>
        have hq := hN q .ref
        have key : ∀ gs : List Field, (∀ f ∈ gs, f ∈ fs) → ∃ vs : List Val, vs.length = gs.length ∧
            (∀ (i : Nat) f v, gs[i]? = some f → vs[i]? = some v → Zero env f.ty v) ∧ FieldsHaveTy env 0 vs gs := by
          intro gs
          induction gs with
          | nil => exact fun _ => ⟨[], rfl, by simp, rfl⟩
          | cons f gs ih =>
            intro hg
            have hf := hg f (by simp)
            obtain ⟨vs, h1, h2, h3⟩ := ih fun g hg' => hg g (by simp [hg'])
            obtain ⟨v, h4, h5⟩ := zero_exists h hr N f.ty (fun q' hb => by have := hr q d fs f q' hd hk hf hb; omega)
              (h.closed q d fs f hd hk hf) (h.short q d fs f hd hk hf)
            refine ⟨v :: vs, by simp [h1], ?_, f, gs, rfl, h5, h3⟩
            intro i g u hg' hu
            cases i with
            | zero => cases hg'; cases hu; exact h4
            | succ i => exact h2 i g u (by simpa using hg') (by simpa using hu)
        obtain ⟨vs, h1, h2, h3⟩ := key fs fun f hf => hf
        exact ⟨_, .record hd hk h1 h2, q, d, fs, rfl, hd, hk, h3⟩
termination_by (N, sizeOf t)

theorem byValue_bound (rank : QName → Nat) : ∀ t : Ty, ∃ N, ∀ q, ByValue t q → rank q < N
  | .null | .bool | .int | .long | .float | .double | .bytes | .string | .array _ | .map _ => ⟨0, fun q h => by cases h⟩
  | .ref q => ⟨rank q + 1, fun q' h => by cases h; omega⟩
  | .union ts => by
    have : ∀ us : List Ty, (∀ u ∈ us, sizeOf u < 1 + sizeOf ts) → ∃ N, ∀ u ∈ us, ∀ q, ByValue u q → rank q < N := by
      intro us
      induction us with
      | nil => exact fun _ => ⟨0, fun u hu => by cases hu⟩
      | cons u us ih =>
        intro hs
        obtain ⟨N, hN⟩ := ih fun x hx => hs x (by simp [hx])
        have := hs u (by simp)
        obtain ⟨M, hM⟩ := byValue_bound rank u
        refine ⟨max N M, fun x hx q hb => ?_⟩
        rcases List.mem_cons.1 hx with rfl | hx
        · have := hM q hb; omega
        · have := hN x hx q hb; omega
    obtain ⟨N, hN⟩ := this ts (fun u hu => by
      have := List.sizeOf_lt_of_mem hu
      omega)
    exact ⟨N, fun q h => by cases h with | union _ hm hb => exact hN _ hm q hb⟩
termination_by t => sizeOf t

/-- Every type has a zero value, which is of the type. -/
theorem has_zero (h : Buildable env) (t : Ty) (hc : t.Closed env) (hs : t.short = true) :
    ∃ v, Zero env t v ∧ HasTy env 0 v t := by
  obtain ⟨rank, hr⟩ := h.sized
  obtain ⟨N, hN⟩ := byValue_bound rank t
  exact zero_exists h hr N t hN hc hs

/-- Every default stands for a value, as in C69, with at most `lim` items in arrays and maps. -/
def DefaultsMean (env : Env) (lim : Nat) : Prop :=
  ∀ q d fs f j, env.find q = some d → d.kind = .record fs → f ∈ fs → f.dflt = some j →
    ∃ v, DefaultMeans env true j f.ty v ∧ HasTy env lim v f.ty

theorem fresh_typed (hE : EnumsCompile nm env) (hF : FieldsApart env) (hC : ConstructorsReturn nm env) (hb : Buildable env)
    {lim : Nat} (hm : DefaultsMean env lim) {rank : QName → Nat}
    (hr : ∀ q d fs f q', env.find q = some d → d.kind = .record fs → f ∈ fs → ByValue f.ty q' → rank q' < rank q) :
    ∀ (N : Nat) q d fs vs, rank q < N → env.find q = some d → d.kind = .record fs → New nm env q vs →
      ∃ w, Shown env (.record vs) (.ref q) w ∧ HasTy env lim w (.ref q)
  | 0, q, d, fs, vs, h, _, _, _ => absurd h (by omega)
  | N + 1, q, d, fs, vs, hN, hq, hk, hn => by
    obtain ⟨hl, hi⟩ := fresh_values hq hk hn
    have one : ∀ (i : Nat) f v, fs[i]? = some f → vs[i]? = some v → ∃ w, Shown env v f.ty w ∧ HasTy env lim w f.ty := by
      intro i f v hf hv
      have hmem := List.mem_of_getElem? hf
      have hcl := hb.closed q d fs f hq hk hmem
      have hsh := hb.short q d fs f hq hk hmem
      cases hd : f.dflt with
      | some j =>
        obtain ⟨u, h1, h2⟩ := hm q d fs f j hq hk hmem hd
        obtain ⟨vs', h3, -, h4⟩ := new_default_partial hE hF hC hq hk
        have := h4 i f j u hf hd h1
        rw [New.same h3 hn, hv] at this
        cases this
        exact ⟨_, .same, h2⟩
      | none =>
        obtain ⟨u, h1, h2⟩ := hi i f hf hd
        rw [hv] at h1
        cases h1
        have hz := has_zero hb f.ty hcl hsh
        generalize hty : f.ty = t at h2 hz hcl hsh ⊢
        cases h2 with
        | null => exact ⟨_, .same, rfl⟩
        | bool => exact ⟨_, .same, rfl⟩
        | int => exact ⟨_, .same, rfl⟩
        | long => exact ⟨_, .same, rfl⟩
        | float => exact ⟨_, .same, rfl⟩
        | double => exact ⟨_, .same, rfl⟩
        | bytes => exact ⟨_, .same, rfl, by simp⟩
        | string => exact ⟨_, .same, rfl, by simp⟩
        | @array t => exact ⟨_, .same, t, rfl, by simp, trivial⟩
        | @map t => exact ⟨_, .same, t, rfl, by simp, by simp [Verif.Sorted], trivial⟩
        | @nil ts hh =>
          simp only [Ty.short, Bool.and_eq_true, decide_eq_true_eq] at hsh
          refine ⟨_, .same, ts, rfl, ?_, hsh.1⟩
          exact List.any_eq_true.2 ⟨_, List.mem_of_mem_head? hh, rfl⟩
        | @union ts hh =>
          simp only [Ty.short, Bool.and_eq_true, decide_eq_true_eq] at hsh
          cases ts with
          | nil => exact absurd rfl hcl.1
          | cons u us =>
            have hun : u ≠ .null := fun e => hh (by rw [e]; rfl)
            have hus := hsh.2
            simp only [Ty.allShort, Bool.and_eq_true] at hus
            obtain ⟨w, h3, h4⟩ := has_zero hb u hcl.2.2.1 hus.1
            refine ⟨_, .unset (u := u) rfl h3, u :: us, u, rfl, rfl, hsh.1, ?_, hasTy_mono (Nat.zero_le _) _ _ h4⟩
            cases u <;> first | rfl | exact absurd rfl hun
        | enum h1 h2 =>
          obtain ⟨v, h3, h4⟩ := hz
          cases h3 with
          | enum => exact ⟨_, .same, hasTy_mono (Nat.zero_le _) _ _ h4⟩
          | fixed h5 h6 => rw [h1] at h5; cases h5; rw [h2] at h6; cases h6
          | record h5 h6 => rw [h1] at h5; cases h5; rw [h2] at h6; cases h6
        | fixed h1 h2 =>
          obtain ⟨v, h3, h4⟩ := hz
          cases h3 with
          | enum h5 h6 => rw [h1] at h5; cases h5; rw [h2] at h6; cases h6
          | fixed h5 h6 => rw [h1] at h5; cases h5; rw [h2] at h6; cases h6; exact ⟨_, .same, hasTy_mono (Nat.zero_le _) _ _ h4⟩
          | record h5 h6 => rw [h1] at h5; cases h5; rw [h2] at h6; cases h6
        | @record q' d' fs' vs' h1 h2 h3 =>
          have := hr q d fs f q' hq hk hmem (by rw [hty]; exact .ref)
          exact fresh_typed hE hF hC hb hm hr N q' d' fs' vs' (by omega) h1 h2 h3
    have key : ∀ (gs : List Field) (us : List Val), us.length = gs.length →
        (∀ (i : Nat) f v, gs[i]? = some f → us[i]? = some v → ∃ w, Shown env v f.ty w ∧ HasTy env lim w f.ty) →
        ∃ ws : List Val, ws.length = gs.length ∧ FieldsHaveTy env lim ws gs ∧
          ∀ (i : Nat) f v w, gs[i]? = some f → us[i]? = some v → ws[i]? = some w → Shown env v f.ty w := by
      intro gs
      induction gs with
      | nil => intro us hl' _; exact ⟨[], rfl, rfl, by simp⟩
      | cons f gs ih =>
        intro us hl' ho
        cases us with
        | nil => simp at hl'
        | cons v us =>
          obtain ⟨ws, h1, h2, h3⟩ := ih us (by simpa using hl') fun i g u hg hu => ho (i + 1) g u (by simpa using hg) (by simpa using hu)
          obtain ⟨w, h4, h5⟩ := ho 0 f v rfl rfl
          refine ⟨w :: ws, by simp [h1], ?_, ?_⟩
          · exact ⟨f, gs, rfl, h5, h2⟩
          · intro i g u x hg hu hx
            cases i with
            | zero => cases hg; cases hu; cases hx; exact h4
            | succ i => exact h3 i g u x (by simpa using hg) (by simpa using hu) (by simpa using hx)
    obtain ⟨ws, h1, h2, h3⟩ := key fs vs hl one
    exact ⟨.record ws, .record hq hk hl h1 h3, q, d, fs, rfl, hq, hk, h2⟩

/-- C92: a record from its constructor is a value of its type: written with the members of new unions set to zero
(`Shown`), it satisfies `HasTy`, and so is encoded. -/
theorem fresh_encodable_partial (hE : EnumsCompile nm env) (hF : FieldsApart env) (hC : ConstructorsReturn nm env)
    (hb : Buildable env) {lim : Nat} (hL : lim < 2 ^ 63) (hm : DefaultsMean env lim) {q : QName} {d : Def} {fs : List Field} (hq : env.find q = some d)
    (hk : d.kind = .record fs) :
    ∃ vs w, New nm env q vs ∧ Shown env (.record vs) (.ref q) w ∧ HasTy env lim w (.ref q) ∧
      ∀ (bw : Bool) (mo : MapOrder), (serialize env bw mo w (.ref q)).2 = true ∧
        ∃ dat, Repr env w (.ref q) dat ∧ Enc env dat (.ref q) (serialize env bw mo w (.ref q)).1.bytes := by
  obtain ⟨rank, hr⟩ := hb.sized
  obtain ⟨vs, hn, -, -⟩ := new_default_partial hE hF hC hq hk
  obtain ⟨w, h1, h2⟩ := fresh_typed hE hF hC hb hm hr (rank q + 1) q d fs vs (by omega) hq hk hn
  refine ⟨vs, w, hn, h1, h2, fun bw mo => ?_⟩
  obtain ⟨dat, e, h3, h4, h5, h6, h7⟩ := ser_enc env bw mo hL w (.ref q) [] h2
  refine ⟨h6, dat, h3, ?_⟩
  have : e = (serialize env bw mo w (.ref q)).1.bytes := by unfold serialize; exact h7.symm
  rw [← this]; exact h4

/-! The hypotheses are met. -/

theorem sampleR_buildable : Buildable sampleR.env where
  closed := sampleR_wellFormed.closedFields
  sizes := sampleR_wellFormed.sizes
  counted := sampleR_short.enums
  short := sampleR_short.fields
  symbols q d ss e h hk := by
    rcases sampleR_find h with ⟨rfl, rfl⟩ | ⟨rfl, rfl⟩ <;> cases hk
    simp
  sized := ⟨fun q => if q = qNode then 1 else 0, by
    intro q d fs f q' h hk hf hb
    obtain ⟨rfl, rfl, rfl⟩ := sampleR_node h hk
    simp only [nodeFieldsR, List.mem_cons, List.not_mem_nil, or_false] at hf
    rcases hf with rfl | rfl | rfl | rfl | rfl | rfl | rfl <;> cases hb
    · rename_i h1 _ _
      exact absurd rfl (h1 .null (by simp))
    · decide⟩

theorem sampleR_mean : DefaultsMean sampleR.env 0 := by
  intro q d fs f j h hk hf hdf
  obtain ⟨rfl, rfl, rfl⟩ := sampleR_node h hk
  simp only [nodeFieldsR, List.mem_cons, List.not_mem_nil, or_false] at hf
  rcases hf with rfl | rfl | rfl | rfl | rfl | rfl | rfl <;> cases hdf
  exact ⟨.int 7, .int (z := 7) (by decide) (by decide), rfl⟩

example := fresh_encodable_partial (nm := .simple) (enums_of (by decide +kernel)) sampleR_wellFormed.apart
  (returns_of 5 (by decide +kernel)) sampleR_buildable (by decide) sampleR_mean (q := qNode) rfl rfl

/-- A new node has a new union where it may have a next node: it stands for a second node, in which everything,
also the field with default 7, is zero. -/
example : New .simple sampleR.env qNode [.bytes [], .int 7, .union 0 none, .enum 0, .map [], .array [], .double 0] :=
  new_of 5 (by decide +kernel)

end Verif.Props
