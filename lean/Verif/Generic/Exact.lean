import Verif.Generic.Agree
import Verif.Gen.Self
set_option linter.unusedSimpArgs false
set_option linter.unusedVariables false
/-
Without promotion and defaults, the generic value shows the value that generated code
decodes; data read with the schema that wrote them are read so.
-/
namespace Verif

theorem allShort_mem {t : Ty} : ∀ {ts : List Ty}, Ty.allShort ts = true → t ∈ ts → t.short = true
  | [], _, h => by simp at h
  | u :: ts, h, hm => by
    simp only [Ty.allShort, Bool.and_eq_true] at h
    rcases List.mem_cons.1 hm with rfl | hm
    · exact h.1
    · exact allShort_mem h.2 hm

section
variable {α β : Type}

theorem mapInsert_map (f : α → β) (k : List Byte) (v : α) : ∀ m : List (List Byte × α),
    mapInsert k (f v) (m.map fun e => (e.1, f e.2)) = (mapInsert k v m).map fun e => (e.1, f e.2)
  | [] => rfl
  | (k', v') :: m => by
    simp only [List.map_cons, mapInsert]
    split
    · rfl
    · split
      · rfl
      · simp only [List.map_cons, mapInsert_map f k v m]

theorem mapInserts_map (f : α → β) : ∀ (es m : List (List Byte × α)),
    mapInserts (m.map fun e => (e.1, f e.2)) (es.map fun e => (e.1, f e.2)) = (mapInserts m es).map fun e => (e.1, f e.2)
  | [], m => rfl
  | (k, v) :: es, m => by
    simp only [List.map_cons, mapInserts, mapInsert_map]
    exact mapInserts_map f es _

theorem mapOf_map (f : α → β) (es : List (List Byte × α)) :
    mapOf (es.map fun e => (e.1, f e.2)) = (mapOf es).map fun e => (e.1, f e.2) := mapInserts_map f es []
end

section
variable {we re : Env}

theorem readerOf_tidy {w r : Ty} (hu : w.isUnion = false) (hr : r.tidy = true ∧ NullsAgree we re w r) :
    (readerOf we re w r).tidy = true ∧ NullsAgree we re w (readerOf we re w r) := by
  cases r <;> try exact hr
  rename_i rs
  have hrm : Ty.tidyMembers rs = true := by simpa [Ty.tidy] using hr.1
  simp only [readerOf]
  cases hf : findIdx (w.readableBy we re) 0 rs with
  | none => exact hr
  | some x =>
    obtain ⟨j, r'⟩ := x
    exact ⟨(tidyMembers_mem hrm (findIdx_mem hf)).2, hr.2.next (.into hu hf)⟩

theorem pickBranch_next {ts rs : List Ty} {t r : Ty} {j : Nat} (hm : t ∈ ts) (hn : t.isNull = false)
    (h : pickBranch we re t rs = some (j, r)) : Next we re (.union ts) (.union rs) t r := by
  unfold pickBranch at h
  split at h
  · rename_i y hy; cases h
    exact .named hm hn hy
  · rename_i hy
    exact .first hm hn hy h

theorem readerOf_short {w r : Ty} (hs : r.short = true) : (readerOf we re w r).short = true := by
  cases r <;> try exact hs
  rename_i rs
  simp only [readerOf]
  cases hf : findIdx (w.readableBy we re) 0 rs with
  | none => exact hs
  | some x =>
    obtain ⟨j, r'⟩ := x
    simp only [Ty.short, Bool.and_eq_true] at hs
    exact allShort_mem hs.2 (findIdx_mem hf)

theorem goView_member {rs : List Ty} (hs : (Ty.union rs).short = true) {j : Nat} {r' : Ty} (hj : rs[j]? = some r') (u : Val) :
    goView re (.union (BitVec.ofInt 64 j) (some u)) (.union rs) = goView re u r' := by
  simp only [Ty.short, Bool.and_eq_true, decide_eq_true_eq] at hs
  have hlt : j < rs.length := (List.getElem?_eq_some_iff.1 hj).1
  have : (BitVec.ofInt 64 (j : Int)).toNat = j := by
    rw [BitVec.toNat_ofInt]; omega
  simp only [goView, this, hj]

/-- A writer type that is no union, read by a union or not. -/
theorem into_view {w r : Ty} {f : Ty → Option Val} {v : Val} (hs : r.short = true) (h : intoReader we re w f r = some v) :
    ∃ u, f (readerOf we re w r) = some u ∧ goView re v r = goView re u (readerOf we re w r) ∧ (v = .nil → u = .nil) := by
  by_cases hu : r.isUnion = true
  · obtain ⟨rs, rfl⟩ : ∃ ts, r = .union ts := by
      cases r <;> first | exact ⟨_, rfl⟩ | (simp [Ty.isUnion] at hu; done)
    simp only [intoReader] at h
    cases hf : findIdx (w.readableBy we re) 0 rs with
    | none => rw [hf] at h; cases h
    | some x =>
      obtain ⟨j, r'⟩ := x
      rw [hf] at h
      simp only [Option.map_eq_some_iff] at h
      obtain ⟨u, h1, rfl⟩ := h
      obtain ⟨_, hj, _⟩ := findIdx_getElem hf
      refine ⟨u, by simp only [readerOf, hf]; exact h1, ?_, fun hn => by cases hn⟩
      simp only [readerOf, hf]
      exact goView_member hs (by simpa using hj) u
  · have hu : r.isUnion = false := by simpa using hu
    rw [intoReader_of hu] at h
    rw [readerOf_of hu]
    exact ⟨v, h, rfl, id⟩

/-! ### Null -/

theorem resolve_not_nil {drop : Datum → Bool} {dv : Field → Val} {d : Datum} {w r : Ty} (hu : w.isUnion = false)
    (hn : w.isNull = false) : resolve drop dv we re d w r ≠ some .nil := by
  have into : ∀ {w : Ty} {f : Ty → Option Val}, (∀ t, f t ≠ some .nil) → intoReader we re w f r ≠ some .nil := by
    intro w f hf h
    by_cases hu : r.isUnion = true
    · cases r <;> first | (simp [Ty.isUnion] at hu; done) | skip
      simp only [intoReader] at h
      split at h
      · simp only [Option.map_eq_some_iff] at h
        obtain ⟨_, _, h⟩ := h; cases h
      · cases h
    · rw [intoReader_of (by simpa using hu)] at h
      exact hf _ h
  have hdef : ∀ {q : QName} {k : DefKind → DefKind → Option Val}, (∀ a b, k a b ≠ some .nil) → ∀ t, defAs we re q k t ≠ some .nil := by
    intro q k hk t
    cases t <;> simp only [defAs] <;> try (intro h; cases h)
    split
    · split
      · exact hk _ _
      · simp
    · simp
  intro h
  cases d with
  | null => simp [resolve, hn] at h
  | union i d => cases w <;> first | (simp [Ty.isUnion] at hu; done) | (simp only [resolve] at h; cases h; done)
  | bool _ | int _ | long _ | float _ | double _ | bytes _ | string _ =>
    cases w <;> simp only [resolve] at h <;> try (cases h; done)
    refine into (fun t => ?_) h
    cases t <;> simp [boolAs, intAs, longAs, floatAs, doubleAs, octetsAs]
  | array _ | map _ =>
    cases w <;> simp only [resolve] at h <;> try (cases h; done)
    refine into (fun t => ?_) h
    cases t <;> simp
  | fixed _ =>
    cases w <;> simp only [resolve] at h <;> try (cases h; done)
    refine into (hdef fun a b => ?_) h
    cases a <;> cases b <;> simp [fixedAs]
  | enum _ =>
    cases w <;> simp only [resolve] at h <;> try (cases h; done)
    refine into (hdef fun a b => ?_) h
    cases a <;> cases b <;> simp only [enumAs, symbolAs] <;> try (simp; done)
    intro h
    split at h
    · split at h
      · cases h
      · split at h
        · simp only [Option.map_eq_some_iff] at h
          obtain ⟨_, _, h⟩ := h; cases h
        · cases h
    · cases h
  | record _ =>
    cases w <;> simp only [resolve] at h <;> try (cases h; done)
    refine into (hdef fun a b => ?_) h
    cases a <;> cases b <;> simp only <;> try (simp; done)
    intro h
    split at h
    · cases h
    · simp only [Option.map_eq_some_iff] at h
      obtain ⟨_, _, h⟩ := h; cases h

/-- The value is nil where the datum is the null of a union. -/
theorem resolve_nil {drop : Datum → Bool} {dv : Field → Val} {d : Datum} {w r : Ty} {v : Val} (hw : w.tidy = true)
    (hr : r.tidy = true ∧ NullsAgree we re w r) (he : Exact we re d w r) (h : resolve drop dv we re d w r = some v) : v = .nil ↔ d.isNil = true := by
  by_cases hwu : w.isUnion = true
  · obtain ⟨ts, rfl⟩ : ∃ ts, w = .union ts := by
      cases w <;> first | exact ⟨_, rfl⟩ | (simp [Ty.isUnion] at hwu; done)
    cases d with
    | union i d =>
      simp only [resolve] at h
      cases ht : ts[i]? with
      | none => rw [ht] at h; cases h
      | some t =>
        rw [ht] at h
        have he' := he ts t rfl ht
        by_cases hn : t.isNull = true
        · rw [if_pos hn] at he'
          subst he'
          simp only [if_pos hn] at h
          have : v = .nil := by
            have hrn : r ≠ .null := hr.2.union (by
              have := List.mem_of_getElem? ht
              cases t <;> simp [Ty.isNull] at hn
              exact this)
            cases r <;> simp only [readNull] at h <;> first | exact absurd rfl hrn | (split at h <;> cases h; rfl)
          simp [this, Datum.isNil]
        · have hn : t.isNull = false := by simpa using hn
          have htt : t.isUnion = false ∧ t.tidy = true :=
            tidyMembers_mem (by simpa [Ty.tidy] using hw) (List.mem_of_getElem? ht)
          simp only [hn] at h
          have hd : (Datum.union i d).isNil = false := by
            cases d with
            | null =>
              exfalso
              simp [resolve, hn] at h
              cases r <;> simp at h
              split at h <;> cases h
            | _ => rfl
          rw [hd]
          simp only [iff_false, Bool.false_eq_true]
          rintro rfl
          by_cases hu : ∃ rs, r = .union rs
          · obtain ⟨rs, rfl⟩ := hu
            simp only [Bool.false_eq_true, if_false] at h
            split at h
            · cases h
            · simp only [Option.map_eq_some_iff] at h
              obtain ⟨_, _, h⟩ := h; cases h
          · have : (if t.readableBy we re r then resolve drop dv we re d t r else none) = some .nil := by
              cases r <;> first | exact absurd ⟨_, rfl⟩ hu | exact h
            split at this
            · exact resolve_not_nil htt.1 hn this
            · cases this
    | null => simp [resolve, Ty.isNull] at h
    | _ => simp [resolve] at h
  · have hwu : w.isUnion = false := by simpa using hwu
    constructor
    · rintro rfl
      exfalso
      cases hwn : w.isNull with
      | false => exact absurd h (resolve_not_nil hwu hwn)
      | true =>
        cases w <;> simp [Ty.isNull] at hwn
        cases hr.2.null
        cases d <;> simp [resolve, Ty.isNull, readNull] at h
    · intro hn
      unfold Datum.isNil at hn
      split at hn
      · cases w <;> first | (simp [Ty.isUnion] at hwu; done) | (simp [resolve] at h; done)
      · cases hn

/-! ### The lemma -/

theorem goViewItems_cons {v : Val} {vs : List Val} {t : Ty} (h : v ≠ .nil) : goViewItems re (v :: vs) t =
    match goView re v t, goViewItems re vs t with
    | some g, some gs => some (g :: gs)
    | _, _ => none := by
  cases v <;> first | rfl | exact absurd rfl h

/-- What is shown of an item or an entry. -/
def itemView (re : Env) (t : Ty) (v : Val) : Option GVal :=
  match v with
  | .nil => none
  | v => goView re v t

theorem itemView_ne {t : Ty} {v : Val} (h : v ≠ .nil) : itemView re t v = goView re v t := by
  cases v <;> first | rfl | exact absurd rfl h

theorem goViewItems_eq (t : Ty) : ∀ vs, goViewItems re vs t = allSome (vs.map (itemView re t))
  | [] => by simp [goViewItems, allSome]
  | v :: vs => by
    by_cases hv : v = .nil
    · subst hv; simp [goViewItems, allSome, itemView]
    · rw [goViewItems_cons hv, goViewItems_eq t vs, List.map_cons, itemView_ne hv]
      cases goView re v t with
      | none => rfl
      | some g => cases h : allSome (vs.map (itemView re t)) <;> simp [allSome, h]

theorem goViewEntries_eq (t : Ty) : ∀ es, goViewEntries re es t = allKeyed (es.map fun e => (e.1, itemView re t e.2))
  | [] => by simp [goViewEntries, allKeyed]
  | (k, v) :: es => by
    by_cases hv : v = .nil
    · subst hv; simp [goViewEntries, allKeyed, itemView]
    · have : goViewEntries re ((k, v) :: es) t = match goView re v t, goViewEntries re es t with
          | some g, some gs => some ((k, g) :: gs)
          | _, _ => none := by
        cases v <;> first | rfl | exact absurd rfl hv
      rw [this, goViewEntries_eq t es, List.map_cons, itemView_ne hv]
      cases goView re v t with
      | none => rfl
      | some g => cases h : allKeyed (es.map fun e => (e.1, itemView re t e.2)) <;> simp [allKeyed, h]

/-- The fields' views, one by one. -/
def fieldViews (re : Env) : List Field → List Val → List (Option GVal)
  | f :: fs, v :: vs => goView re v f.ty :: fieldViews re fs vs
  | _, _ => []

theorem goViewFields_eq : ∀ (fs : List Field) (vs : List Val), vs.length = fs.length →
    (goViewFields re vs fs).map GVal.record = recordView fs (fieldViews re fs vs)
  | [], [], _ => by simp [goViewFields, recordView, fieldViews, allSome]
  | f :: fs, v :: vs, h => by
    have := goViewFields_eq fs vs (by simpa using h)
    simp only [goViewFields, recordView, fieldViews] at this ⊢
    cases goView re v f.ty with
    | none => simp [allSome]
    | some g =>
      cases h1 : allSome (fieldViews re fs vs) <;> rw [h1] at this <;> cases h2 : goViewFields re vs fs <;> rw [h2] at this <;>
        simp at this <;> simp [allSome, h1, this]

/-- A slot of generated code and of the generic record agree. -/
def SlotsAgree (re : Env) (rfs : List Field) (s : List (Option Val)) (g : List (Option (Option GVal))) : Prop :=
  s.length = rfs.length ∧ g.length = rfs.length ∧ ∀ (i : Nat) (f : Field), rfs[i]? = some f →
    g[i]? = (s[i]?).map fun o => o.map fun v => goView re v f.ty

theorem SlotsAgree.set {rfs : List Field} {s g} (h : SlotsAgree re rfs s g) {i : Nat} {f : Field} (hf : rfs[i]? = some f) (v : Val) :
    SlotsAgree re rfs (s.set i (some v)) (g.set i (some (goView re v f.ty))) := by
  obtain ⟨h1, h2, h3⟩ := h
  refine ⟨by simpa using h1, by simpa using h2, fun j f' hj => ?_⟩
  simp only [List.getElem?_set]
  by_cases hij : i = j
  · subst hij
    rw [hf] at hj; cases hj
    have := (List.getElem?_eq_some_iff.1 hf).1
    simp [h1, h2, this]
  · simp only [if_neg hij]; exact h3 j f' hj

theorem slots_full (dv : Field → Val) : ∀ {rfs : List Field} {s : List (Option Val)} {g : List (Option (Option GVal))},
    SlotsAgree re rfs s g → (∀ i : Nat, s[i]? ≠ some none) →
    ∃ vs, fillDefaults dv rfs s = some vs ∧ fillRaw rfs g = fieldViews re rfs vs ∧ vs.length = rfs.length
  | [], s, g, h, _ => by
    obtain ⟨h1, h2, _⟩ := h
    cases s <;> cases g <;> first | (simp at h1; done) | (simp at h2; done) | skip
    exact ⟨[], rfl, rfl, rfl⟩
  | f :: rfs, s, g, h, hn => by
    obtain ⟨h1, h2, h3⟩ := h
    cases s with
    | nil => simp at h1
    | cons o s =>
      cases g with
      | nil => simp at h2
      | cons p g =>
        obtain ⟨vs, h4, h5, h6⟩ := slots_full dv (rfs := rfs) (s := s) (g := g)
          ⟨by simpa using h1, by simpa using h2, fun i f' hi => by simpa using h3 (i + 1) f' (by simpa using hi)⟩
          (fun i hi => hn (i + 1) (by simpa using hi))
        cases o with
        | none => exact absurd rfl (hn 0)
        | some v =>
          have hp : p = some (goView re v f.ty) := by simpa using h3 0 f (by simp)
          subst hp
          exact ⟨v :: vs, by simp [fillDefaults, h4], by simp [fillRaw, fieldViews, h5], by simp [h6]⟩

variable {drop : Datum → Bool} {dv : Field → Val}
variable (hE : EnumsOK re) (hTW : TidyFields we) (hTR : TidyFields re)
  (hSR : ∀ q d fs f, re.find q = some d → d.kind = .record fs → f ∈ fs → f.ty.short = true)
include hE hTW hTR hSR

mutual
/-- Without promotion and defaults the generic value shows the value of the generated type. -/
theorem show_exact : ∀ (d : Datum) (w r : Ty) (v : Val), w.tidy = true → (r.tidy = true ∧ NullsAgree we re w r) → r.short = true →
    Exact we re d w r → resolve drop dv we re d w r = some v → showDatum we re d w r = goView re v r
  | .null, w, r, v, hw, hr, hs, he, h => by
    cases w <;> simp [resolve, Ty.isNull] at h
    cases hr.2.null
    simp only [readNull, Option.some.injEq] at h
    subst h
    simp [showDatum, goView]
  | .bool b, w, r, v, hw, hr, hs, he, h => by
    cases w <;> simp only [resolve] at h <;> try (cases h; done)
    obtain ⟨u, h1, h2, _⟩ := into_view hs h
    rw [h2, (he : readerOf we re _ r = _)]
    rw [(he : readerOf we re _ r = _)] at h1
    cases h1; simp [showDatum, goView]
  | .int b, w, r, v, hw, hr, hs, he, h => by
    cases w <;> simp only [resolve] at h <;> try (cases h; done)
    obtain ⟨u, h1, h2, _⟩ := into_view hs h
    rw [h2, (he : readerOf we re _ r = _)]
    rw [(he : readerOf we re _ r = _)] at h1
    cases h1; simp [showDatum, goView]
  | .long b, w, r, v, hw, hr, hs, he, h => by
    cases w <;> simp only [resolve] at h <;> try (cases h; done)
    obtain ⟨u, h1, h2, _⟩ := into_view hs h
    rw [h2, (he : readerOf we re _ r = _)]
    rw [(he : readerOf we re _ r = _)] at h1
    cases h1; simp [showDatum, goView]
  | .float b, w, r, v, hw, hr, hs, he, h => by
    cases w <;> simp only [resolve] at h <;> try (cases h; done)
    obtain ⟨u, h1, h2, _⟩ := into_view hs h
    rw [h2, (he : readerOf we re _ r = _)]
    rw [(he : readerOf we re _ r = _)] at h1
    cases h1; simp [showDatum, goView]
  | .double b, w, r, v, hw, hr, hs, he, h => by
    cases w <;> simp only [resolve] at h <;> try (cases h; done)
    obtain ⟨u, h1, h2, _⟩ := into_view hs h
    rw [h2, (he : readerOf we re _ r = _)]
    rw [(he : readerOf we re _ r = _)] at h1
    cases h1; simp [showDatum, goView]
  | .bytes b, w, r, v, hw, hr, hs, he, h => by
    cases w <;> simp only [resolve] at h <;> try (cases h; done)
    obtain ⟨u, h1, h2, _⟩ := into_view hs h
    rw [h2, (he : readerOf we re _ r = _)]
    rw [(he : readerOf we re _ r = _)] at h1
    cases h1; simp [showDatum, goView]
  | .string b, w, r, v, hw, hr, hs, he, h => by
    cases w <;> simp only [resolve] at h <;> try (cases h; done)
    obtain ⟨u, h1, h2, _⟩ := into_view hs h
    rw [h2, (he : readerOf we re _ r = _)]
    rw [(he : readerOf we re _ r = _)] at h1
    cases h1; simp [showDatum, goView]
  | .fixed bs, w, r, v, hw, hr, hs, he, h => by
    cases w <;> simp only [resolve] at h <;> try (cases h; done)
    obtain ⟨u, h1, h2, _⟩ := into_view hs h
    rw [h2]
    generalize readerOf we re _ r = r' at h1
    cases r' <;> simp only [defAs] at h1 <;> try (cases h1; done)
    split at h1 <;> try (cases h1; done)
    split at h1 <;> try (cases h1; done)
    rename_i wd rd _ _ _
    cases hk1 : wd.kind <;> cases hk2 : rd.kind <;> rw [hk1, hk2] at h1 <;> simp only [fixedAs] at h1 <;> cases h1
    simp [showDatum, goView]
  | .enum i, w, r, v, hw, hr, hs, he, h => by
    cases w <;> simp only [resolve] at h <;> try (cases h; done)
    rename_i q
    obtain ⟨u, h1, h2, _⟩ := into_view hs h
    rw [h2]
    simp only [showDatum]
    generalize readerOf we re _ r = r' at h1
    cases r' <;> simp only [defAs] at h1 <;> try (cases h1; done)
    rename_i q'
    split at h1 <;> try (cases h1; done)
    split at h1 <;> try (cases h1; done)
    rename_i wd rd hf1 hf2 _
    cases hk1 : wd.kind <;> cases hk2 : rd.kind <;> rw [hk1, hk2] at h1 <;> simp only [enumAs] at h1 <;> try (cases h1; done)
    rename_i ws wdf rs rdf
    simp only [Ty.kindIn, hf1, hf2, Option.map_some, hk1, hk2, symbolView]
    cases hat : (if 0 ≤ i then ws[i.toNat]? else none) with
    | none => rw [hat] at h1; cases h1
    | some s =>
      rw [hat] at h1
      simp only [symbolAs] at h1
      have hle := hE q' rd rs rdf hf2 hk2
      have fin : ∀ {x : Str} {j : Nat}, symbolIndex rs x = some j → goView re (.enum (BitVec.ofInt 32 j)) (.ref q') = some (.symbol x) := by
        intro x j hx
        obtain ⟨i, h1, h2⟩ := symbolIndexFrom_at hx
        have hj : j = i := by omega
        subst hj
        have hlt : j < rs.length := (List.getElem?_eq_some_iff.1 h2).1
        have hn : (BitVec.ofInt 32 (j : Int)).toNat = j := by
          rw [BitVec.toNat_ofInt]; omega
        obtain ⟨nm, al, k⟩ := rd
        simp only at hk2
        subst hk2
        simp only [goView, hf2, hn, h2, Option.map_some]
      cases hsi : symbolIndex rs s with
      | some j =>
        rw [hsi] at h1; cases h1
        have hmem : s ∈ rs := by
          by_cases hm : s ∈ rs
          · exact hm
          · rw [symbolIndex_eq_none.2 hm] at hsi; cases hsi
        rw [fin hsi]
        simp only [if_pos hmem]
      | none =>
        rw [hsi] at h1
        simp only at h1
        split at h1
        · simp only [Option.map_eq_some_iff] at h1
          obtain ⟨j, hj, rfl⟩ := h1
          have hj' : ∃ a, symbolIndex rs rdf = some a ∧ (a : Int) = j := by
            cases hq : symbolIndex rs rdf <;> rw [hq] at hj <;> simp at hj
            exact ⟨_, rfl, hj⟩
          obtain ⟨a, ha, rfl⟩ := hj'
          rw [fin ha]
          simp only [if_neg (symbolIndex_eq_none.1 hsi)]
        · cases h1
  | .array ds, w, r, v, hw, hr, hs, he, h => by
    cases w <;> simp only [resolve] at h <;> try (cases h; done)
    rename_i wi
    obtain ⟨u, h1, h2, _⟩ := into_view hs h
    have hr' := readerOf_tidy (we := we) (re := re) (w := .array wi) rfl hr
    have hs' := readerOf_short (we := we) (re := re) (w := .array wi) hs
    simp only [Exact, Ty.itemOr] at he
    rw [h2]
    simp only [showDatum, Ty.itemOr]
    generalize readerOf we re (.array wi) r = r' at h1 hr' hs' he
    cases r' <;> simp only at h1 <;> try (cases h1; done)
    rename_i ri
    simp only [Option.map_eq_some_iff] at h1
    obtain ⟨vs, h3, rfl⟩ := h1
    have := show_exact_items ds wi ri vs (by simpa [Ty.tidy] using hw) ⟨by simpa [Ty.tidy] using hr'.1, hr'.2.next .item⟩ (by simpa [Ty.short] using hs')
      he h3
    simp only [this, goView, goViewItems_eq]
  | .map es, w, r, v, hw, hr, hs, he, h => by
    cases w <;> simp only [resolve] at h <;> try (cases h; done)
    rename_i wi
    obtain ⟨u, h1, h2, _⟩ := into_view hs h
    have hr' := readerOf_tidy (we := we) (re := re) (w := .map wi) rfl hr
    have hs' := readerOf_short (we := we) (re := re) (w := .map wi) hs
    simp only [Exact, Ty.itemOr] at he
    rw [h2]
    simp only [showDatum, Ty.itemOr]
    generalize readerOf we re (.map wi) r = r' at h1 hr' hs' he
    cases r' <;> simp only at h1 <;> try (cases h1; done)
    rename_i ri
    simp only [Option.map_eq_some_iff] at h1
    obtain ⟨vs, h3, rfl⟩ := h1
    have := show_exact_entries es wi ri vs (by simpa [Ty.tidy] using hw) ⟨by simpa [Ty.tidy] using hr'.1, hr'.2.next .value⟩ (by simpa [Ty.short] using hs')
      he h3
    simp only [this, goView, goViewEntries_eq, mapOf_map]
  | .union i d, w, r, v, hw, hr, hs, he, h => by
    cases w <;> simp only [resolve] at h <;> try (cases h; done)
    rename_i ts
    cases ht : ts[i]? with
    | none => rw [ht] at h; cases h
    | some t =>
      rw [ht] at h
      have he' := he ts t rfl ht
      cases hn : t.isNull with
      | true =>
        rw [if_pos hn] at he'
        subst he'
        simp only [hn, if_true] at h
        rw [showDatum_nil rfl]
        cases r <;> simp only [readNull] at h <;> first
          | (cases h; rfl)
          | (split at h <;> cases h; rfl)
      | false =>
        rw [if_neg (by simp [hn])] at he'
        simp only [hn, Bool.false_eq_true, if_false] at h
        have htm := List.mem_of_getElem? ht
        have htt : t.isUnion = false ∧ t.tidy = true := tidyMembers_mem (by simpa [Ty.tidy] using hw) htm
        have hd : ∀ r', resolve drop dv we re d t r' ≠ none → (Datum.union i d).isNil = false := by
          intro r' h'
          cases d with
          | null => simp [resolve, hn] at h'
          | _ => rfl
        by_cases hu : ∃ rs, r = .union rs
        · obtain ⟨rs, rfl⟩ := hu
          simp only at h he'
          cases hp : pickBranch we re t rs with
          | none => rw [hp] at h; cases h
          | some x =>
            obtain ⟨j, r'⟩ := x
            rw [hp] at h he'
            simp only [Option.map_eq_some_iff] at h he'
            obtain ⟨u, h1, rfl⟩ := h
            have hj : rs[j]? = some r' := by
              unfold pickBranch at hp
              split at hp
              · rename_i y hy; cases hp
                have := (findIdx_getElem hy).2.1; simpa using this
              · have := (findIdx_getElem hp).2.1; simpa using this
            have hmem := List.mem_of_getElem? hj
            have htr : r'.tidy = true ∧ NullsAgree we re t r' :=
              ⟨(tidyMembers_mem (by simpa [Ty.tidy] using hr.1) hmem).2, hr.2.next (pickBranch_next htm hn hp)⟩
            have hsr : r'.short = true := by
              simp only [Ty.short, Bool.and_eq_true] at hs
              exact allShort_mem hs.2 hmem
            rw [goView_member hs hj]
            rw [← show_exact d t r' u htt.2 htr hsr he' h1]
            simp only [showDatum, hd r' (by rw [h1]; simp), ht, hp]
            simp
        · have h' : (if t.readableBy we re r then resolve drop dv we re d t r else none) = some v := by
            cases r <;> first | exact absurd ⟨_, rfl⟩ hu | exact h
          have he'' : Exact we re d t r := by
            cases r <;> first | exact absurd ⟨_, rfl⟩ hu | exact he'
          split at h'
          · rename_i hread
            rw [← show_exact d t r v htt.2 ⟨hr.1, hr.2.next (.single htm hn (by
              cases r <;> first | rfl | exact absurd ⟨_, rfl⟩ hu) hread)⟩ hs he'' h']
            have hdn := hd r (by rw [h']; simp)
            cases r <;> first | exact absurd ⟨_, rfl⟩ hu | simp [showDatum, hdn, ht]
          · cases h'
  | .record ds, w, r, v, hw, hr, hs, he, h => by
    cases w <;> simp only [resolve] at h <;> try (cases h; done)
    rename_i q
    obtain ⟨u, h1, h2, _⟩ := into_view hs h
    rw [h2]
    simp only [Exact] at he
    simp only [showDatum]
    have hr' := readerOf_tidy (we := we) (re := re) (w := .ref q) rfl hr
    generalize readerOf we re _ r = r' at h1 he hr'
    cases r' <;> simp only [defAs] at h1 <;> try (cases h1; done)
    rename_i q'
    split at h1 <;> try (cases h1; done)
    split at h1 <;> try (cases h1; done)
    rename_i wd rd hf1 hf2 _
    cases hk1 : wd.kind <;> cases hk2 : rd.kind <;> rw [hk1, hk2] at h1 <;> simp only at h1 <;> try (cases h1; done)
    rename_i wfs rfs
    simp only [Ty.kindIn, hf1, hf2, Option.map_some, hk1, hk2] at he ⊢
    cases hrf : resolveFields drop dv we re ds wfs rfs (List.replicate rfs.length none) with
    | none => rw [hrf] at h1; cases h1
    | some s =>
      rw [hrf] at h1
      simp only [Option.map_eq_some_iff] at h1
      obtain ⟨vs, h3, rfl⟩ := h1
      have ha := show_exact_fields ds wfs rfs (List.replicate rfs.length none) (List.replicate rfs.length none) s
        (fun f hf => hTW q wd wfs f hf1 hk1 hf)
        ⟨fun f hf => hTR q' rd rfs f hf2 hk2 hf, fun wf hwf i rf hfn hread => hr'.2.next (.field hf1 hf2 hk1 hk2 hwf hfn hread)⟩ (fun f hf => hSR q' rd rfs f hf2 hk2 hf) he.2
        ⟨by simp, by simp, fun i f hi => by
          have := (List.getElem?_eq_some_iff.1 hi).1
          simp [List.getElem?_replicate, this]⟩ hrf
      obtain ⟨hl, hsl⟩ := resolveFields_slots _ hrf
      have hnn : ∀ i : Nat, s[i]? ≠ some none := by
        intro i hi
        have hi' := (hsl i).1 hi
        have hlt : i < rfs.length := by
          have := (List.getElem?_eq_some_iff.1 hi).1
          simp at hl; omega
        obtain ⟨w, hw, hfw⟩ := he.1 i rfs[i] (by simp [hlt])
        exact hi'.2 w hw _ hfw
      obtain ⟨vs', h4, h5, h6⟩ := slots_full dv ha hnn
      rw [h3] at h4; cases h4
      obtain ⟨nm, al, k⟩ := rd
      simp only at hk2
      subst hk2
      rw [h5, ← goViewFields_eq rfs vs h6]
      simp only [goView, hf2]
theorem show_exact_items : ∀ (ds : List Datum) (w r : Ty) (vs : List Val), w.tidy = true → r.tidy = true ∧ NullsAgree we re w r → r.short = true →
    ExactItems we re ds w r → resolveItems drop dv we re ds w r = some vs → showItems we re ds w r = vs.map (itemView re r)
  | [], w, r, vs, _, _, _, _, h => by simp only [resolveItems, Option.some.injEq] at h; subst h; simp [showItems]
  | d :: ds, w, r, vs, hw, hr, hs, he, h => by
    simp only [resolveItems] at h
    cases h1 : resolve drop dv we re d w r with
    | none => rw [h1] at h; cases h
    | some v =>
      rw [h1] at h
      simp only [Option.map_eq_some_iff] at h
      obtain ⟨us, h2, rfl⟩ := h
      have hn := resolve_nil hw hr he.1 h1
      simp only [showItems, List.map_cons, show_exact_items ds w r us hw hr hs he.2 h2]
      cases hd : d.isNil with
      | true => rw [hn.2 hd]; simp [itemView]
      | false =>
        rw [itemView_ne (fun hv => by rw [hn.1 hv] at hd; cases hd), show_exact d w r v hw hr hs he.1 h1]
        simp
theorem show_exact_entries : ∀ (es : List (List Byte × Datum)) (w r : Ty) (vs : List (List Byte × Val)), w.tidy = true →
    r.tidy = true ∧ NullsAgree we re w r → r.short = true → ExactEntries we re es w r → resolveEntries drop dv we re es w r = some vs →
    showEntries we re es w r = vs.map fun e => (e.1, itemView re r e.2)
  | [], w, r, vs, _, _, _, _, h => by simp only [resolveEntries, Option.some.injEq] at h; subst h; simp [showEntries]
  | (k, d) :: es, w, r, vs, hw, hr, hs, he, h => by
    simp only [resolveEntries] at h
    cases h1 : resolve drop dv we re d w r with
    | none => rw [h1] at h; cases h
    | some v =>
      rw [h1] at h
      simp only [Option.map_eq_some_iff] at h
      obtain ⟨us, h2, rfl⟩ := h
      have hn := resolve_nil hw hr he.1 h1
      simp only [showEntries, List.map_cons, show_exact_entries es w r us hw hr hs he.2 h2]
      cases hd : d.isNil with
      | true => rw [hn.2 hd]; simp [itemView]
      | false =>
        rw [itemView_ne (fun hv => by rw [hn.1 hv] at hd; cases hd), show_exact d w r v hw hr hs he.1 h1]
        simp
theorem show_exact_fields : ∀ (ds : List Datum) (wfs rfs : List Field) (slots : List (Option Val))
    (g : List (Option (Option GVal))) (s : List (Option Val)), (∀ f ∈ wfs, f.ty.tidy = true) →
    ((∀ f ∈ rfs, f.ty.tidy = true) ∧ ∀ wf ∈ wfs, ∀ i rf, fieldByName rfs wf.name = some (i, rf) →
      wf.ty.readableBy we re rf.ty = true → NullsAgree we re wf.ty rf.ty) →
    (∀ f ∈ rfs, f.ty.short = true) → ExactFields we re ds wfs rfs → SlotsAgree re rfs slots g →
    resolveFields drop dv we re ds wfs rfs slots = some s → SlotsAgree re rfs s (showFields we re ds wfs rfs g)
  | [], wfs, rfs, slots, g, s, _, _, _, _, ha, h => by
    cases wfs <;> simp only [resolveFields] at h <;> cases h
    simpa [showFields] using ha
  | d :: ds, wfs, rfs, slots, g, s, hw, hr, hs, he, ha, h => by
    cases wfs with
    | nil => simp [resolveFields] at h
    | cons w wfs =>
      have ih := fun slots g h ha => show_exact_fields ds wfs rfs slots g s (fun f hf => hw f (by simp [hf]))
        ⟨hr.1, fun wf hwf => hr.2 wf (by simp [hwf])⟩ hs he.2 ha h
      unfold resolveFields at h
      simp only at h
      have he1 := he.1
      simp only [showFields]
      cases hf : fieldByName rfs w.name with
      | none =>
        rw [hf] at h
        simp only at h ⊢
        split at h
        · exact ih slots g h ha
        · cases h
      | some x =>
        obtain ⟨i, rf⟩ := x
        rw [hf] at h he1
        simp only at h he1 ⊢
        split at h
        · rename_i hread
          cases h1 : resolve drop dv we re d w.ty rf.ty with
          | none => rw [h1] at h; cases h
          | some v =>
            rw [h1] at h
            have hm := fieldByName_mem hf
            rw [show_exact d w.ty rf.ty v (hw w (by simp)) ⟨hr.1 rf hm, hr.2 w (by simp) i rf hf hread⟩ (hs rf hm) he1 h1]
            exact ih _ _ h (ha.set (fieldByName_getElem hf) v)
        · cases h
end
end
end Verif
