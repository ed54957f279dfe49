import Verif.Gen.EnvLocal
import Verif.Schema.CanReadProof
/-
What is found at the positions of a resolved value.
-/
namespace Verif
set_option linter.unusedSimpArgs false
set_option linter.unusedVariables false

theorem findIdx_first {p : Ty → Bool} {P : Ty → Prop} (hp : ∀ u, p u = true ↔ P u) {t : Ty} :
    ∀ {ts : List Ty} {j : Nat} (k : Nat), First P ts j t → findIdx p k ts = some (k + j, t)
  | [], j, k, h => by have := h.get; simp at this
  | u :: ts, 0, k, h => by
    have h1 := h.get
    simp only [List.getElem?_cons_zero, Option.some.injEq] at h1
    subst h1
    simp only [findIdx, (hp u).2 h.holds, if_true, Nat.add_zero]
  | u :: ts, j + 1, k, h => by
    have h1 : ¬ p u = true := fun hu => h.first 0 u (by omega) (by simp) ((hp u).1 hu)
    simp only [findIdx, h1, if_false]
    rw [findIdx_first hp (k + 1) ⟨by simpa using h.get, h.holds, fun i x hi hx => h.first (i + 1) x (by omega) (by simpa using hx)⟩]
    rw [show k + 1 + j = k + (j + 1) by omega]; simp

theorem findIdx_none_of {p : Ty → Bool} : ∀ {ts : List Ty} (k : Nat), (∀ t ∈ ts, p t = false) → findIdx p k ts = none
  | [], k, h => rfl
  | t :: ts, k, h => by
    simp only [findIdx, h t List.mem_cons_self]
    exact findIdx_none_of (k + 1) fun u hu => h u (List.mem_cons_of_mem _ hu)

theorem first_of_findIdx {p : Ty → Bool} {P : Ty → Prop} (hp : ∀ u, p u = true ↔ P u) {t : Ty} :
    ∀ {ts : List Ty} {j k : Nat}, findIdx p k ts = some (j, t) → ∃ i, j = k + i ∧ First P ts i t
  | [], j, k, h => by cases h
  | u :: ts, j, k, h => by
    simp only [findIdx] at h
    split at h
    · rename_i hu
      cases h
      exact ⟨0, rfl, ⟨rfl, (hp _).1 hu, fun i x hi => by omega⟩⟩
    · rename_i hu
      obtain ⟨i, h1, h2⟩ := first_of_findIdx hp h
      refine ⟨i + 1, by omega, by simpa using h2.get, h2.holds, fun i' x hi hx => ?_⟩
      cases i' with
      | zero => simp at hx; subst hx; exact fun hh => hu ((hp _).2 hh)
      | succ i' => exact h2.first i' x (by omega) (by simpa using hx)

section
variable {we re : Env}

theorem pickBranch_of {t : Ty} {rs : List Ty} {j : Nat} {r : Ty} (h : Picks we re t rs j r) :
    pickBranch we re t rs = some (j, r) := by
  have hn : ∀ u : Ty, (u.goName re == t.goName we) = true ↔ SameTypeName we re t u := by
    intro u; simp only [SameTypeName, beq_iff_eq]; exact eq_comm
  unfold pickBranch
  rcases h with h | ⟨h1, h2⟩
  · rw [findIdx_first hn 0 h]; simp
  · rw [findIdx_none_of 0 (fun r' hr' => by
      have := h1 r' hr'
      rw [← hn r'] at this
      simpa using this)]
    simp only
    rw [findIdx_first (fun u => readable_iff) 0 h2]; simp

theorem picks_of {t : Ty} {rs : List Ty} {j : Nat} {r : Ty} (h : pickBranch we re t rs = some (j, r)) :
    Picks we re t rs j r := by
  have hn : ∀ u : Ty, (u.goName re == t.goName we) = true ↔ SameTypeName we re t u := by
    intro u; simp only [SameTypeName, beq_iff_eq]; exact eq_comm
  unfold pickBranch at h
  split at h
  · rename_i hx
    cases h
    obtain ⟨i, h1, h2⟩ := first_of_findIdx hn hx
    rw [Nat.zero_add] at h1; subst h1; exact .inl h2
  · rename_i hx
    obtain ⟨i, h1, h2⟩ := first_of_findIdx (fun u => readable_iff) h
    rw [Nat.zero_add] at h1; subst h1
    refine .inr ⟨fun r' hr' hs => ?_, h2⟩
    have := findIdx_none hx r' hr'
    rw [(hn r').2 hs] at this; cases this

theorem pickBranch_none {t : Ty} {rs : List Ty} : pickBranch we re t rs = none ↔
    ∀ r ∈ rs, ¬ SameTypeName we re t r ∧ ¬ CanRead we re t r := by
  have hn : ∀ u : Ty, (u.goName re == t.goName we) = true ↔ SameTypeName we re t u := by
    intro u; simp only [SameTypeName, beq_iff_eq]; exact eq_comm
  constructor
  · intro h r hr
    unfold pickBranch at h
    split at h
    · cases h
    · rename_i hx
      refine ⟨fun hs => ?_, fun hc => ?_⟩
      · have := findIdx_none hx r hr
        rw [(hn r).2 hs] at this; cases this
      · have := findIdx_none h r hr
        rw [readable_iff.2 hc] at this; cases this
  · intro h
    unfold pickBranch
    rw [findIdx_none_of 0 (fun r hr => by
      have := (h r hr).1
      rw [← hn r] at this
      simpa using this)]
    simp only
    refine findIdx_none_of 0 fun r hr => ?_
    have := (h r hr).2
    rw [← readable_iff] at this
    simpa using this

variable {drop : Datum → Bool} {dv : Field → Val}

theorem resolveItems_get : ∀ {ds : List Datum} {w r : Ty} {vs : List Val} {i : Nat} {d : Datum},
    resolveItems drop dv we re ds w r = some vs → ds[i]? = some d →
    ∃ v, vs[i]? = some v ∧ resolve drop dv we re d w r = some v
  | [], w, r, vs, i, d, h, hd => by simp at hd
  | x :: ds, w, r, vs, i, d, h, hd => by
    simp only [resolveItems] at h
    split at h
    · cases h
    · rename_i v hv
      rw [Option.map_eq_some_iff] at h
      obtain ⟨us, hu, rfl⟩ := h
      cases i with
      | zero => simp at hd; subst hd; exact ⟨v, rfl, hv⟩
      | succ i => simpa using resolveItems_get hu (by simpa using hd)

theorem resolveItems_length : ∀ {ds : List Datum} {w r : Ty} {vs : List Val},
    resolveItems drop dv we re ds w r = some vs → vs.length = ds.length
  | [], w, r, vs, h => by cases h; rfl
  | x :: ds, w, r, vs, h => by
    simp only [resolveItems] at h
    split at h
    · cases h
    · rw [Option.map_eq_some_iff] at h
      obtain ⟨us, hu, rfl⟩ := h
      simp [resolveItems_length hu]

/-- A type that is no union, read as a union. -/
theorem resolve_wrap {d : Datum} {w : Ty} {rs : List Ty} {v : Val} (hw : w ≠ .null) (hu : ∀ ts, w ≠ .union ts)
    (h : resolve drop dv we re d w (.union rs) = some v) :
    ∃ j r, First (CanRead we re w) rs j r ∧ ((∀ rs', r ≠ .union rs') →
      ∃ u, v = .union (BitVec.ofInt 64 j) (some u) ∧ resolve drop dv we re d w r = some u) := by
  have key : ∀ f, (∀ r, (∀ rs', r ≠ .union rs') → resolve drop dv we re d w r = f r) →
      intoReader we re w f (.union rs) = some v →
      ∃ j r, First (CanRead we re w) rs j r ∧ ((∀ rs', r ≠ .union rs') →
        ∃ u, v = .union (BitVec.ofInt 64 j) (some u) ∧ resolve drop dv we re d w r = some u) := by
    intro f hf hi
    simp only [intoReader] at hi
    split at hi
    · rename_i j r hx
      obtain ⟨i, h1, h2⟩ := first_of_findIdx (fun u => readable_iff) hx
      rw [Nat.zero_add] at h1; subst h1
      rw [Option.map_eq_some_iff] at hi
      obtain ⟨u, h3, rfl⟩ := hi
      exact ⟨j, r, h2, fun hr => ⟨u, rfl, by rw [hf r hr, h3]⟩⟩
    · cases hi
  have inR : ∀ {f : Ty → Option Val} {r : Ty}, (∀ rs', r ≠ .union rs') → intoReader we re w f r = f r := by
    intro f r hr
    cases r <;> first | rfl | exact absurd rfl (hr _)
  cases d with
  | null =>
    simp only [resolve] at h
    cases w <;> simp [Ty.isNull] at h hw
  | union i d =>
    simp only [resolve] at h
    cases w <;> first | (cases h; done) | exact absurd rfl (hu _)
  | _ =>
    simp only [resolve] at h
    cases w <;> simp only at h <;> first | (cases h; done) | skip
    all_goals
      refine key _ (fun r hr => ?_) h
      simp only [resolve]
      exact inR hr

/-- What a part of the datum is read as is found at its position in the value. -/
theorem resolve_at {d w r p d' w' r'} (hp : Sees we re d w r p d' w' r') : ∀ v,
    resolve drop dv we re d w r = some v →
    ∃ v', v.at p = some v' ∧ resolve drop dv we re d' w' r' = some v' := by
  induction hp with
  | here => intro v h; exact ⟨v, rfl, h⟩
  | item hd _ ih =>
    intro v h
    simp only [resolve, intoReader, Option.map_eq_some_iff] at h
    obtain ⟨vs, hv, rfl⟩ := h
    obtain ⟨u, h1, h2⟩ := resolveItems_get hv hd
    obtain ⟨v', h3, h4⟩ := ih u h2
    exact ⟨v', by simp only [Val.at, Val.step, h1, h3], h4⟩
  | @entry es k d w r p d' w' r' hd _ ih =>
    intro v h
    obtain ⟨m, rfl, hm⟩ := resolve_map h
    have := hm k
    rw [hd] at this
    obtain ⟨u, h1, h2⟩ := this
    obtain ⟨v', h3, h4⟩ := ih u h1
    exact ⟨v', by simp only [Val.at, Val.step, h2, h3], h4⟩
  | @field ds i j d wf rf q q' wd rd wfs rfs p d' w' r' hw hwk hr hrk hm hd _ ih =>
    intro v h
    obtain ⟨wd', rd', wfs', rfs', vs, h1, h2, h3, h4, rfl, h5, h6, h7, h8⟩ := resolve_record h
    rw [hw] at h1; cases h1
    rw [hr] at h2; cases h2
    rw [hwk] at h3; cases h3
    rw [hrk] at h4; cases h4
    obtain ⟨d1, u, h9, h10, h11⟩ := h7 i j wf rf hm.writer (fieldByName_of hm.reader hm.answers hm.onlyR)
      (fun i' w' hi' hf => hm.onlyW i' w' hi' (fieldByName_some hf).2)
    rw [hd] at h9; cases h9
    obtain ⟨v', h12, h13⟩ := ih u h11
    exact ⟨v', by simp only [Val.at, Val.step, h10, h12], h13⟩
  | @member i ts t rs j r d p d' w' r' ht hn hpk _ ih =>
    intro v h
    have hnn : t.isNull = false := by cases t <;> simp [Ty.isNull] at hn ⊢
    simp only [resolve, ht, hnn, pickBranch_of hpk, Option.map_eq_some_iff, Bool.false_eq_true, if_false] at h
    obtain ⟨u, h1, rfl⟩ := h
    obtain ⟨v', h3, h4⟩ := ih u h1
    exact ⟨v', by simp only [Val.at, Val.step, if_true, h3], h4⟩
  | @unwrap i ts t r d p d' w' r' ht hn hr _ ih =>
    intro v h
    have hnn : t.isNull = false := by cases t <;> simp [Ty.isNull] at hn ⊢
    simp only [resolve, ht, hnn, Bool.false_eq_true, if_false] at h
    cases r with
    | union rs => exact absurd rfl (hr rs)
    | _ =>
      split at h
      · exact ih v h
      · cases h
  | @wrap d w rs j r p d' w' r' hn hu hf hr _ ih =>
    intro v h
    obtain ⟨j', r1, h1, h2⟩ := resolve_wrap hn hu h
    have : j' = j ∧ r1 = r := by
      have a := findIdx_first (p := w.readableBy we re) (fun u => readable_iff) 0 h1
      have b := findIdx_first (p := w.readableBy we re) (fun u => readable_iff) 0 hf
      rw [a] at b
      simpa using b
    obtain ⟨rfl, rfl⟩ := this
    obtain ⟨u, rfl, h3⟩ := h2 hr
    obtain ⟨v', h4, h5⟩ := ih u h3
    exact ⟨v', by simp only [Val.at, Val.step, if_true, h4], h5⟩

/-- Null has no parts but itself. -/
theorem sees_nil {d w r p d' w' r'} (hp : Sees we re d w r p d' w' r')
    (h : resolve drop dv we re d w r = some .nil) : resolve drop dv we re d' w' r' = some .nil := by
  obtain ⟨v', h1, h2⟩ := resolve_at hp _ h
  cases p with
  | nil => cases h1; exact h2
  | cons s p => simp [Val.at, Val.step] at h1
end
end Verif
