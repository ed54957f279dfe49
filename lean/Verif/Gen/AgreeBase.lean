import Verif.Gen.Parse
import Verif.Compiler.Flags
set_option linter.unusedSimpArgs false
set_option linter.unusedVariables false
/-
Helper lemmas for `Verif.Gen.Agree`.
-/
namespace Verif
variable {R : Type}

/-! ### `Out` -/

theorem Out.bind_done {α β : Type} {x : Out α} {f : α → Out β} {b : β} (h : x.bind f = .done b) :
    ∃ a, x = .done a ∧ f a = .done b := by
  cases x with
  | done a => exact ⟨a, rfl, h⟩
  | err e => simp [Out.bind] at h
  | timeout => simp [Out.bind] at h

theorem Out.bind_err {α β : Type} {x : Out α} {f : α → Out β} {e : Err} (h : x.bind f = .err e) :
    x = .err e ∨ ∃ a, x = .done a ∧ f a = .err e := by
  cases x with
  | done a => exact .inr ⟨a, rfl, h⟩
  | err e' => simp only [Out.bind, Out.err.injEq] at h; exact .inl (by rw [h])
  | timeout => simp [Out.bind] at h

/-! ### Searches -/

theorem findIdx_getElem {p : Ty → Bool} : ∀ {ts : List Ty} {i j t}, findIdx p i ts = some (j, t) →
    i ≤ j ∧ ts[j - i]? = some t ∧ p t = true := by
  intro ts
  induction ts with
  | nil => intro i j t h; simp [findIdx] at h
  | cons a ts ih =>
    intro i j t h
    unfold findIdx at h
    split at h
    · rename_i hp
      simp only [Option.some.injEq, Prod.mk.injEq] at h
      obtain ⟨rfl, rfl⟩ := h
      simp [hp]
    · obtain ⟨h1, h2, h3⟩ := ih h
      refine ⟨by omega, ?_, h3⟩
      rw [show j - i = (j - (i + 1)) + 1 by omega]
      simpa using h2

theorem findIdx_none {p : Ty → Bool} : ∀ {ts : List Ty} {i}, findIdx p i ts = none → ∀ t ∈ ts, p t = false := by
  intro ts
  induction ts with
  | nil => intro i _ t h; simp at h
  | cons a ts ih =>
    intro i h t ht
    unfold findIdx at h
    split at h
    · simp at h
    · rename_i hp
      rcases List.mem_cons.1 ht with rfl | ht
      · simpa using hp
      · exact ih h t ht

theorem fieldByNameFrom_getElem {n : Str} : ∀ {fs : List Field} {i j f}, fieldByNameFrom i fs n = some (j, f) →
    i ≤ j ∧ fs[j - i]? = some f := by
  intro fs
  induction fs with
  | nil => intro i j f h; simp [fieldByNameFrom] at h
  | cons a fs ih =>
    intro i j f h
    unfold fieldByNameFrom at h
    split at h
    · simp only [Option.some.injEq, Prod.mk.injEq] at h
      obtain ⟨rfl, rfl⟩ := h
      simp
    · obtain ⟨h1, h2⟩ := ih h
      refine ⟨by omega, ?_⟩
      rw [show j - i = (j - (i + 1)) + 1 by omega]
      simpa using h2

theorem fieldByName_getElem {n : Str} {fs : List Field} {j f} (h : fieldByName fs n = some (j, f)) :
    fs[j]? = some f := by
  have := (fieldByNameFrom_getElem h).2
  simpa using this

theorem atIndex_some {α : Type} {l : List α} {v : BitVec 64} {a} (h : atIndex l v = some a) :
    l[v.toNat]? = some a := by
  unfold atIndex at h
  split at h
  · rename_i h0
    have : v.toInt.toNat = v.toNat := by
      have := BitVec.toInt_eq_toNat_cond v
      split at this <;> omega
    rwa [this] at h
  · simp at h

/-! ### Slots -/

theorem allSome_map_some {α : Type} (l : List α) : allSome (l.map some) = some l := by
  induction l with
  | nil => rfl
  | cons a l ih => simp [allSome, ih]

theorem allEntries_map (l : List (List Byte × Val)) :
    allEntries (l.map fun e => (e.1, some e.2)) = some l := by
  induction l with
  | nil => rfl
  | cons a l ih => simp [allEntries, ih]

/-- `Finalize` never panics. -/
def Tgt.final : Tgt → Tgt
  | .map item h pend cur => .map item h pend (match cur, allEntries pend with
      | some m, some es => some (mapInserts m es)
      | _, _ => none)
  | t => t

theorem genFinalize_eq (t : Tgt) : genFinalize t = .ok t.final := by
  cases t <;> rfl

/-! ### Default values can be set in any order -/

theorem genOps_defaultsCommute (re : Env) (lim : Nat) (dv : Field → Val) :
    DefaultsCommute (genOps re lim dv) := by
  intro t i j
  simp only [genOps]
  by_cases hij : i = j
  · subst hij; rfl
  cases t with
  | record fs slots =>
    have key : ∀ i : Int, (∃ e, ∀ s, genSetDefault dv (.record fs s) i = .error e ∧ e = .panic) ∨
        (0 ≤ i ∧ ∃ v, ∀ s, genSetDefault dv (.record fs s) i = .ok (.record fs (s.set i.toNat (some v)))) := by
      intro i
      by_cases h0 : i < 0
      · exact .inl ⟨.panic, fun s => by simp [genSetDefault, h0]⟩
      · cases hf : fs[i.toNat]? with
        | none => exact .inl ⟨.panic, fun s => by simp [genSetDefault, h0, hf]⟩
        | some f =>
          by_cases hd : f.dflt.isNone
          · exact .inl ⟨.panic, fun s => by simp [genSetDefault, h0, hf, hd]⟩
          · exact .inr ⟨by omega, dv f, fun s => by simp [genSetDefault, h0, hf, hd]⟩
    rcases key i with ⟨e, he⟩ | ⟨hi, v, hv⟩ <;> rcases key j with ⟨e', he'⟩ | ⟨hj, v', hv'⟩
    · simp only [(he _).1, (he' _).1, Except.bind, (he slots).2, (he' slots).2]
    · simp only [(he _).1, hv', Except.bind]
    · simp only [hv, (he' _).1, Except.bind]
    · simp only [hv, hv', Except.bind]
      rw [List.set_comm]
      omega
  | leaf l v => rfl
  | array a b => rfl
  | map a b c d => rfl
  | union a b c => rfl
  | bad => rfl

/-! ### Fields the writer lacks -/

/-- Fields with their indices. -/
def indexed (i : Nat) : List Field → List (Nat × Field)
  | [] => []
  | f :: fs => (i, f) :: indexed (i + 1) fs

theorem mem_indexed {fs : List Field} : ∀ {i : Nat} {x : Nat × Field}, x ∈ indexed i fs ↔ i ≤ x.1 ∧ fs[x.1 - i]? = some x.2 := by
  induction fs with
  | nil => intro i x; simp [indexed]
  | cons f fs ih =>
    intro i x
    simp only [indexed, List.mem_cons, ih]
    constructor
    · rintro (rfl | ⟨h1, h2⟩)
      · simp
      · refine ⟨by omega, ?_⟩
        rw [show x.1 - i = (x.1 - (i + 1)) + 1 by omega]
        simpa using h2
    · rintro ⟨h1, h2⟩
      by_cases he : x.1 = i
      · left
        rw [he, Nat.sub_self] at h2
        simp only [List.getElem?_cons_zero, Option.some.injEq] at h2
        exact Prod.ext he h2.symm
      · right
        refine ⟨by omega, ?_⟩
        rw [show x.1 - i = (x.1 - (i + 1)) + 1 by omega] at h2
        simpa using h2

theorem tableFrom_nodup : ∀ {fs : List Field} {l : List (Nat × Field)} {i : Nat},
    (l.map (·.2.name) ++ fs.map (·.name)).Nodup → tableFrom l i fs = l ++ indexed i fs := by
  intro fs
  induction fs with
  | nil => intro l i _; simp [tableFrom, indexed]
  | cons f fs ih =>
    intro l i h
    have hf : l.filter (fun y => y.2.name ≠ f.name) = l := by
      rw [List.filter_eq_self]
      intro y hy
      simp only [decide_not, Bool.not_eq_true', decide_eq_false_iff_not]
      intro he
      rw [List.nodup_append] at h
      exact h.2.2 y.2.name (List.mem_map_of_mem hy) f.name (by simp) he
    have : tableFrom l i (f :: fs) = tableFrom (l ++ [(i, f)]) (i + 1) fs := by
      show tableFrom (insertField l (i, f)) (i + 1) fs = _
      simp only [insertField]
      rw [hf]
    rw [this, ih]
    · simp [indexed]
    · simp only [List.map_append, List.map_cons, List.map_nil, List.append_assoc, List.singleton_append]
      simpa using h

theorem mem_dropMatched {rfs : List Field} : ∀ {wfs : List Field} {l : List (Nat × Field)} {x : Nat × Field},
    x ∈ dropMatched rfs l wfs ↔ x ∈ l ∧ ∀ w ∈ wfs, ∀ j rf, fieldByName rfs w.name = some (j, rf) → rf.name ≠ x.2.name := by
  intro wfs
  induction wfs with
  | nil => intro l x; simp [dropMatched]
  | cons w wfs ih =>
    intro l x
    unfold dropMatched
    split
    · rename_i j rf hf
      rw [ih]
      simp only [List.mem_filter, decide_not, Bool.not_eq_true', decide_eq_false_iff_not, List.mem_cons,
        forall_eq_or_imp]
      constructor
      · rintro ⟨⟨h1, h2⟩, h3⟩
        refine ⟨h1, ?_, h3⟩
        intro j' rf' hf'
        rw [hf] at hf'
        simp only [Option.some.injEq, Prod.mk.injEq] at hf'
        obtain ⟨rfl, rfl⟩ := hf'
        exact fun h => h2 h.symm
      · rintro ⟨h1, h2, h3⟩
        exact ⟨⟨h1, fun h => h2 _ _ hf h.symm⟩, h3⟩
    · rename_i hf
      rw [ih]
      simp only [List.mem_cons, forall_eq_or_imp]
      constructor
      · rintro ⟨h1, h2⟩
        exact ⟨h1, by simp [hf], h2⟩
      · rintro ⟨h1, h2, h3⟩
        exact ⟨h1, h3⟩

theorem getElem?_inj_name {fs : List Field} (h : (fs.map (·.name)).Nodup) {i j : Nat} {a b : Field}
    (hi : fs[i]? = some a) (hj : fs[j]? = some b) (he : a.name = b.name) : i = j := by
  have h1 : (fs.map (·.name))[i]? = some a.name := by simp [hi]
  have h2 : (fs.map (·.name))[j]? = some a.name := by simp [hj, he]
  obtain ⟨hi', _⟩ := List.getElem?_eq_some_iff.1 h1
  exact (List.getElem?_inj hi' h).1 (h1.trans h2.symm)

/-- A field is set from its default exactly if no writer field is stored in it. -/
theorem mem_missing {wfs rfs : List Field} (h : (rfs.map (·.name)).Nodup) {i : Nat} {f : Field} :
    (i, f) ∈ missingFields wfs rfs ↔ rfs[i]? = some f ∧
      ∀ w ∈ wfs, ∀ rf, fieldByName rfs w.name ≠ some (i, rf) := by
  unfold missingFields
  rw [tableFrom_nodup (by simpa using h), mem_dropMatched]
  simp only [List.nil_append, mem_indexed, Nat.sub_zero, Nat.zero_le, true_and]
  constructor
  · rintro ⟨h1, h2⟩
    refine ⟨h1, fun w hw rf hf => ?_⟩
    have := fieldByName_getElem hf
    rw [h1] at this
    simp only [Option.some.injEq] at this
    exact h2 w hw i rf hf (by rw [this])
  · rintro ⟨h1, h2⟩
    refine ⟨h1, fun w hw j rf hf he => ?_⟩
    have := getElem?_inj_name h (fieldByName_getElem hf) h1 he
    subst this
    exact h2 w hw rf hf

theorem fillDefaults_ok {dv : Field → Val} : ∀ {rfs : List Field} {slots : List (Option Val)},
    slots.length = rfs.length →
    (∀ (i : Nat) (f : Field), rfs[i]? = some f → slots[i]? = some none → f.dflt.isSome = true) →
    fillDefaults dv rfs slots = some (List.zipWith (fun f o => Option.getD o (dv f)) rfs slots) := by
  intro rfs
  induction rfs with
  | nil =>
    intro slots hl _
    cases slots with
    | nil => rfl
    | cons a l => simp at hl
  | cons f rfs ih =>
    intro slots hl h
    cases slots with
    | nil => simp at hl
    | cons o slots =>
      have := ih (slots := slots) (by simpa using hl) (fun (i : Nat) (g : Field) h1 h2 => h (i + 1) g (by simpa using h1) (by simpa using h2))
      cases o with
      | some v => simp [fillDefaults, this]
      | none =>
        have hd := h 0 f (by simp) (by simp)
        simp [fillDefaults, this, hd]

theorem fillDefaults_none {dv : Field → Val} : ∀ {rfs : List Field} {slots : List (Option Val)} {i : Nat} {f : Field},
    rfs[i]? = some f → slots[i]? = some none → f.dflt.isSome = false → fillDefaults dv rfs slots = none := by
  intro rfs
  induction rfs with
  | nil => intro slots i f h; simp at h
  | cons g rfs ih =>
    intro slots i f h1 h2 h3
    cases slots with
    | nil => simp at h2
    | cons o slots =>
      cases i with
      | zero =>
        simp only [List.getElem?_cons_zero, Option.some.injEq] at h1 h2
        subst h1; subst h2
        simp [fillDefaults, h3]
      | succ i =>
        have := ih (by simpa using h1) (by simpa using h2) h3
        cases o with
        | some v => simp [fillDefaults, this]
        | none => simp only [fillDefaults, this]; split <;> rfl

/-- The slots after the defaults in `l` have been set. -/
def setAll {α : Type} (dv : Field → α) (slots : List (Option α)) : List (Nat × Field) → List (Option α)
  | [] => slots
  | (i, f) :: l => setAll dv (slots.set i (some (dv f))) l

theorem setAll_length {α : Type} {dv : Field → α} : ∀ {l : List (Nat × Field)} {slots : List (Option α)}, (setAll dv slots l).length = slots.length := by
  intro l
  induction l with
  | nil => intro s; rfl
  | cons x l ih => intro s; obtain ⟨i, f⟩ := x; simp [setAll, ih]

theorem setAll_get_not {α : Type} {dv : Field → α} : ∀ {l : List (Nat × Field)} {slots : List (Option α)} {i : Nat}, (∀ f, (i, f) ∉ l) →
    (setAll dv slots l)[i]? = slots[i]? := by
  intro l
  induction l with
  | nil => intro s i _; rfl
  | cons x l ih =>
    intro s i h
    obtain ⟨j, g⟩ := x
    have hj : j ≠ i := fun he => h g (by simp [he])
    simp only [setAll]
    rw [ih (fun f hf => h f (by simp [hf]))]
    simp [List.getElem?_set, hj]

theorem setAll_get {α : Type} {dv : Field → α} : ∀ {l : List (Nat × Field)} {slots : List (Option α)} {i : Nat} {f : Field},
    (∀ g, (i, g) ∈ l → g = f) → (i, f) ∈ l → i < slots.length →
    (setAll dv slots l)[i]? = some (some (dv f)) := by
  intro l
  induction l with
  | nil => intro s i f _ h; simp at h
  | cons x l ih =>
    intro s i f hu hm hlt
    obtain ⟨j, g⟩ := x
    simp only [setAll]
    by_cases hin : (i, f) ∈ l
    · exact ih (fun g hg => hu g (by simp [hg])) hin (by simpa using hlt)
    · rcases List.mem_cons.1 hm with he | he
      · simp only [Prod.mk.injEq] at he
        obtain ⟨rfl, rfl⟩ := he
        rw [setAll_get_not]
        · simp [hlt]
        · intro g hg
          have := hu g (by simp [hg])
          subst this
          exact hin hg
      · exact absurd he hin

/-- Setting the defaults of the missing fields, when exactly the matched fields have been
assigned. -/
theorem setAll_missing {α : Type} (dv : Field → α) {wfs rfs : List Field}
    {slots : List (Option α)} (hn : (rfs.map (·.name)).Nodup) (hl : slots.length = rfs.length)
    (hs : ∀ i, slots[i]? = some none → ∀ w ∈ wfs, ∀ rf, fieldByName rfs w.name ≠ some (i, rf))
    (hs' : ∀ i f, rfs[i]? = some f → (∀ w ∈ wfs, ∀ rf, fieldByName rfs w.name ≠ some (i, rf)) → slots[i]? = some none) :
    setAll dv slots (missingFields wfs rfs) =
      (List.zipWith (fun f o => Option.getD o (dv f)) rfs slots).map some := by
  apply List.ext_getElem?
  intro i
  by_cases hi : i < rfs.length
  · have hf : rfs[i]? = some rfs[i] := List.getElem?_eq_getElem hi
    by_cases hm : (i, rfs[i]) ∈ missingFields wfs rfs
    · rw [setAll_get (fun g hg => ?_) hm (by omega)]
      · have hno := hs' i _ hf ((mem_missing hn).1 hm).2
        simp [List.getElem?_zipWith, hf, hno]
      · have := ((mem_missing hn).1 hg).1
        rw [hf] at this
        simpa using this.symm
    · rw [setAll_get_not]
      · have hsl : slots[i]? = some slots[i] := List.getElem?_eq_getElem (by omega)
        have : slots[i] ≠ none := by
          intro he
          rw [he] at hsl
          exact hm ((mem_missing hn).2 ⟨hf, hs i hsl⟩)
        cases hv : slots[i] with
        | none => exact absurd hv this
        | some v =>
          rw [hv] at hsl
          simp [List.getElem?_zipWith, hf, hsl]
      · intro g hg
        have := ((mem_missing hn).1 hg).1
        rw [hf] at this
        simp only [Option.some.injEq] at this
        subst this
        exact hm hg
  · rw [List.getElem?_eq_none (by rw [setAll_length]; omega), List.getElem?_eq_none (by simp; omega)]

theorem defaultsSem_run (re : Env) (lim : Nat) (dv : Field → Val) {rfs : List Field} (rd : R) :
    ∀ {l : List (Nat × Field)} {slots : List (Option Val)}, (∀ x ∈ l, rfs[x.1]? = some x.2) →
    ((∀ x ∈ l, x.2.dflt.isSome = true) → defaultsSem (genOps re lim dv) l rd (.record rfs slots) =
      .done (false, rd, .record rfs (setAll dv slots l))) ∧
    ((∃ x ∈ l, x.2.dflt.isSome = false) → ∃ e, defaultsSem (genOps re lim dv) l rd (.record rfs slots) = .err e) := by
  intro l
  induction l with
  | nil => intro s _; exact ⟨fun _ => rfl, fun h => by simp at h⟩
  | cons x l ih =>
    intro s h
    obtain ⟨i, f⟩ := x
    have hf : rfs[i]? = some f := h (i, f) (by simp)
    have h0 : ¬ ((i : Int) < 0) := by omega
    by_cases hd : f.dflt.isSome = true
    · have hn : f.dflt.isNone = false := by cases hx : f.dflt <;> simp_all
      have hstep : genSetDefault dv (.record rfs s) (i : Int) = .ok (.record rfs (s.set i (some (dv f)))) := by
        simp only [genSetDefault, h0, if_false, Int.toNat_natCast, hf, hn]
        simp
      obtain ⟨h1, h2⟩ := ih (slots := s.set i (some (dv f))) (fun x hx => h x (by simp [hx]))
      constructor
      · intro ha
        have := h1 (fun x hx => ha x (by simp [hx]))
        simp only [defaultsSem, Sem.seq, Sem.act, genOps, hstep, setAll] at this ⊢
        rw [this]
        rfl
      · rintro ⟨x, hx, hxd⟩
        rcases List.mem_cons.1 hx with rfl | hx
        · simp [hd] at hxd
        · obtain ⟨e, he⟩ := h2 ⟨x, hx, hxd⟩
          refine ⟨e, ?_⟩
          simp only [defaultsSem, Sem.seq, Sem.act, genOps, hstep] at he ⊢
          rw [he]
    · have hn : f.dflt.isNone = true := by cases hx : f.dflt <;> simp_all
      have hstep : genSetDefault dv (.record rfs s) (i : Int) = .error .panic := by
        simp only [genSetDefault, h0, if_false, Int.toNat_natCast, hf, hn]
        simp
      constructor
      · intro ha; exact absurd (ha (i, f) (by simp)) hd
      · intro _
        refine ⟨.panic, ?_⟩
        simp only [defaultsSem, Sem.seq, Sem.act, genOps, hstep]

/-- Setting the defaults of the missing fields, when exactly the matched fields have been
assigned. -/
theorem defaults_agree (re : Env) (lim : Nat) (dv : Field → Val) {wfs rfs : List Field} (rd : R)
    {slots : List (Option Val)} (hn : (rfs.map (·.name)).Nodup) (hl : slots.length = rfs.length)
    (hs : ∀ i, slots[i]? = some none → ∀ w ∈ wfs, ∀ rf, fieldByName rfs w.name ≠ some (i, rf))
    (hs' : ∀ i f, rfs[i]? = some f → (∀ w ∈ wfs, ∀ rf, fieldByName rfs w.name ≠ some (i, rf)) → slots[i]? = some none) :
    match fillDefaults dv rfs slots with
    | some vs => defaultsSem (genOps re lim dv) (missingFields wfs rfs) rd (.record rfs slots) =
        .done (false, rd, .record rfs (vs.map some))
    | none => ∃ e, defaultsSem (genOps re lim dv) (missingFields wfs rfs) rd (.record rfs slots) = .err e := by
  obtain ⟨h1, h2⟩ := defaultsSem_run re lim dv rd (rfs := rfs) (l := missingFields wfs rfs) (slots := slots)
    (fun x hx => ((mem_missing hn).1 hx).1)
  by_cases hd : ∀ x ∈ missingFields wfs rfs, x.2.dflt.isSome = true
  · have hfill := fillDefaults_ok (dv := dv) hl (fun i f hf ho =>
      hd (i, f) ((mem_missing hn).2 ⟨hf, hs i ho⟩))
    rw [hfill]
    simp only
    rw [h1 hd]
    rw [setAll_missing dv hn hl hs hs']
  · simp only [Classical.not_forall] at hd
    obtain ⟨⟨i, f⟩, hm, hx⟩ := hd
    have hx : f.dflt.isSome = false := by simpa using hx
    obtain ⟨hf, hno⟩ := (mem_missing hn).1 hm
    rw [fillDefaults_none hf (hs' i f hf hno) hx]
    exact h2 ⟨(i, f), hm, hx⟩

end Verif
