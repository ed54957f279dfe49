import Verif.Gen.Outcome
import Verif.Gen.ResolveFields
/-
`vm.Eval` on a variable that already holds a value.
-/
namespace Verif
set_option linter.unusedSimpArgs false
set_option linter.unusedVariables false
variable {R : Type}

/-- The target `&v` for a variable of the Go type for `t` that holds `v`: a record
(templates/record.go:17-26) or a union (templates/union.go:24-29). -/
def Tgt.holding (env : Env) (t : Ty) (v : Val) : Tgt :=
  match t, v with
  | .ref q, .record vs => match env.find q with
    | none => .bad
    | some d => match d.kind with
      | .record fs => .record fs (vs.map some)
      | _ => .bad
  | .union ts, .union tag x =>
    .union ts tag (x.map fun _ => tag.toNat) ((List.replicate ts.length none).set tag.toNat x)
  | _, _ => .bad

/-- `SetDefault(i)` on a record that may hold a value in the field: templates/record.go:122-133. The
statements of `DefaultForField` do not begin by emptying the field, so what they leave may depend on
what it held: `old f u` for a field that held `u`, `dv f` for a field of a record just made. -/
def genSetDefaultOn (dv : Field → Val) (old : Field → Val → Val) (t : Tgt) (i : Int) : Except Err Tgt :=
  match t with
  | .record fs slots =>
    if i < 0 then .error .panic else
    match fs[i.toNat]? with
    | none => .error .panic
    | some f =>
      if f.dflt.isNone then .error .panic
      else .ok (.record fs (slots.set i.toNat (some (match slots[i.toNat]?.join with
        | none => dv f
        | some u => old f u))))
  | _ => .error .panic

/-- `genOps`, for variables that may hold values. -/
def genOpsOn (re : Env) (lim : Nat) (dv : Field → Val) (old : Field → Val → Val) : FieldOps Tgt :=
  { genOps re lim dv with setDefault := genSetDefaultOn dv old }

theorem genOpsOn_eq {re : Env} {lim : Nat} {dv : Field → Val} {old : Field → Val → Val}
    (h : ∀ f u, f.dflt.isSome = true → old f u = dv f) : genOpsOn re lim dv old = genOps re lim dv := by
  have : genSetDefaultOn dv old = genSetDefault dv := by
    funext t i
    unfold genSetDefaultOn genSetDefault
    cases t with
    | record fs slots =>
      dsimp only
      by_cases hi : i < 0
      · rw [if_pos hi, if_pos hi]
      · rw [if_neg hi, if_neg hi]
        cases fs[i.toNat]? with
        | none => rfl
        | some f =>
          dsimp only
          cases hd : f.dflt with
          | none => rfl
          | some j =>
            have : f.dflt.isSome = true := by rw [hd]; rfl
            cases slots[i.toNat]?.join with
            | none => rfl
            | some u => simp [h f u this]
    | _ => rfl
  unfold genOpsOn
  rw [this]
  rfl

theorem genOpsOn_defaultsCommute (re : Env) (lim : Nat) (dv : Field → Val) (old : Field → Val → Val) :
    DefaultsCommute (genOpsOn re lim dv old) := by
  intro t i j
  simp only [genOpsOn]
  by_cases hij : i = j
  · subst hij; rfl
  cases t with
  | record fs slots =>
    have key : ∀ i : Int, (∃ e, ∀ s, genSetDefaultOn dv old (.record fs s) i = .error e ∧ e = .panic) ∨
        (0 ≤ i ∧ ∃ v : Option (Option Val) → Val, ∀ s, genSetDefaultOn dv old (.record fs s) i =
          .ok (.record fs (s.set i.toNat (some (v s[i.toNat]?))))) := by
      intro i
      by_cases h0 : i < 0
      · exact .inl ⟨.panic, fun s => by simp [genSetDefaultOn, h0]⟩
      · cases hf : fs[i.toNat]? with
        | none => exact .inl ⟨.panic, fun s => by simp [genSetDefaultOn, h0, hf]⟩
        | some f =>
          by_cases hd : f.dflt.isNone
          · exact .inl ⟨.panic, fun s => by simp [genSetDefaultOn, h0, hf, hd]⟩
          · exact .inr ⟨by omega, fun o => match o.join with | none => dv f | some u => old f u,
              fun s => by simp [genSetDefaultOn, h0, hf, hd]⟩
    rcases key i with ⟨e, he⟩ | ⟨hi, v, hv⟩ <;> rcases key j with ⟨e', he'⟩ | ⟨hj, v', hv'⟩
    · simp only [(he _).1, (he' _).1, Except.bind, (he slots).2, (he' slots).2]
    · simp only [(he _).1, hv', Except.bind]
    · simp only [hv, (he' _).1, Except.bind]
    · simp only [hv, hv', Except.bind]
      rw [List.getElem?_set_ne (by omega), List.getElem?_set_ne (by omega), List.set_comm _ _ (by omega)]
  | leaf l v => rfl
  | array a b => rfl
  | map a b c d => rfl
  | union a b c => rfl
  | bad => rfl

/-- `compiler.Compile` and then `vm.Eval(r, deser, &x)` for a variable `x` that holds `v0`: as
`Deserializes`, for which `x` is new. `old` says what setting a default leaves in a field that
holds a value. -/
inductive DeserializesInto {R : Type} (σ : Setting R) (old : Field → Val → Val) (w r : Schema) (v0 : Val) (rd : R) : Res R → Prop
  | refused {e} : compile σ.ord false w r = .error e → DeserializesInto σ old w r v0 rd .refused
  | failed {prog e} : compile σ.ord false w r = .ok prog →
      Evaluates σ.ro (genOpsOn r.env σ.lim σ.dv old) prog rd (.holding r.env r.root v0) (.error e) →
      DeserializesInto σ old w r v0 rd .failed
  | value {prog rd' t v} : compile σ.ord false w r = .ok prog →
      Evaluates σ.ro (genOpsOn r.env σ.lim σ.dv old) prog rd (.holding r.env r.root v0) (.ok (rd', t)) →
      t.val = some v → DeserializesInto σ old w r v0 rd (.value v rd')
  | junk {prog rd' t} : compile σ.ord false w r = .ok prog →
      Evaluates σ.ro (genOpsOn r.env σ.lim σ.dv old) prog rd (.holding r.env r.root v0) (.ok (rd', t)) →
      t.val = none → DeserializesInto σ old w r v0 rd .junk

theorem DeserializesInto.det {old : Field → Val → Val} {σ : Setting R} {w r : Schema} {v0 : Val} {rd : R} {a b : Res R}
    (ha : DeserializesInto σ old w r v0 rd a) (hb : DeserializesInto σ old w r v0 rd b) : a = b := by
  cases ha with
  | refused h => cases hb with
    | refused => rfl
    | failed h' => rw [h] at h'; cases h'
    | value h' => rw [h] at h'; cases h'
    | junk h' => rw [h] at h'; cases h'
  | failed h he => cases hb with
    | refused h' => rw [h] at h'; cases h'
    | failed h' => rfl
    | value h' he' => rw [h] at h'; cases h'; cases he.det he'
    | junk h' he' => rw [h] at h'; cases h'; cases he.det he'
  | value h he hv => cases hb with
    | refused h' => rw [h] at h'; cases h'
    | failed h' he' => rw [h] at h'; cases h'; cases he.det he'
    | value h' he' hv' => rw [h] at h'; cases h'; cases he.det he'; rw [hv] at hv'; cases hv'; rfl
    | junk h' he' hv' => rw [h] at h'; cases h'; cases he.det he'; rw [hv] at hv'; cases hv'
  | junk h he hv => cases hb with
    | refused h' => rw [h] at h'; cases h'
    | failed h' he' => rw [h] at h'; cases h'; cases he.det he'
    | value h' he' hv' => rw [h] at h'; cases h'; cases he.det he'; rw [hv] at hv'; cases hv'
    | junk h' => rfl

/-! ### Slots that agree where something has been assigned -/

/-- What is assigned in `a` is the same in `b`. -/
def SlotsLe (a b : List (Option Val)) : Prop := a.length = b.length ∧ ∀ (i : Nat) (v : Val), a[i]? = some (some v) → b[i]? = some (some v)

theorem SlotsLe.set {a b : List (Option Val)} (h : SlotsLe a b) (i : Nat) (v : Val) :
    SlotsLe (a.set i (some v)) (b.set i (some v)) := by
  refine ⟨by simpa using h.1, fun j u hj => ?_⟩
  rw [List.getElem?_set] at hj ⊢
  by_cases hij : i = j
  · subst hij
    rw [if_pos rfl] at hj ⊢
    rw [← h.1]; exact hj
  · rw [if_neg hij] at hj ⊢
    exact h.2 j u hj

theorem SlotsLe.full {vs : List Val} {b : List (Option Val)} (h : SlotsLe (vs.map some) b) : b = vs.map some := by
  apply List.ext_getElem?
  intro i
  by_cases hi : i < vs.length
  · rw [h.2 i vs[i] (by simp [hi])]
    simp [hi]
  · have : b.length ≤ i := by rw [← h.1]; simp; omega
    rw [List.getElem?_eq_none this, List.getElem?_eq_none (by simp; omega)]

theorem slotsLe_none {n : Nat} {b : List (Option Val)} (h : b.length = n) : SlotsLe (List.replicate n none) b := by
  refine ⟨by simp [h], fun i v hi => ?_⟩
  simp [List.getElem?_replicate] at hi

theorem resolveFields_le {drop : Datum → Bool} {dv : Field → Val} {we re : Env} :
    ∀ (ds : List Datum) (wfs rfs : List Field) {a b : List (Option Val)}, SlotsLe a b →
    match resolveFields drop dv we re ds wfs rfs a with
    | none => resolveFields drop dv we re ds wfs rfs b = none
    | some a' => ∃ b', resolveFields drop dv we re ds wfs rfs b = some b' ∧ SlotsLe a' b' := by
  intro ds
  induction ds with
  | nil =>
    intro wfs rfs a b h
    cases wfs with
    | nil => exact ⟨b, rfl, h⟩
    | cons w ws => rfl
  | cons d ds ih =>
    intro wfs rfs a b h
    cases wfs with
    | nil => rfl
    | cons w ws =>
      simp only [resolveFields]
      cases fieldByName rfs w.name with
      | none =>
        by_cases hd : drop d = true
        · simp only [hd, if_true]; exact ih ws rfs h
        · simp only [hd]; rfl
      | some x =>
        obtain ⟨i, rf⟩ := x
        by_cases hr : w.ty.readableBy we re rf.ty = true
        · simp only [hr, if_true]
          cases resolve drop dv we re d w.ty rf.ty with
          | none => rfl
          | some v => exact ih ws rfs (h.set i v)
        · simp only [hr]; rfl

theorem setAll_le {dv : Field → Val} : ∀ (l : List (Nat × Field)) {a b : List (Option Val)}, SlotsLe a b →
    SlotsLe (setAll dv a l) (setAll dv b l) := by
  intro l
  induction l with
  | nil => intro a b h; exact h
  | cons x l ih => intro a b h; exact ih (h.set _ _)

section
variable {ro : ReaderOps R} {lim : Nat} {dv : Field → Val} {we re : Env}

local notation "gops" => genOps re lim dv

theorem prim_panics {α : Type} {rd : R → Except Err (α × R)} {set : Tgt → α → Except Err Tgt} {r : Ty} {t : Tgt}
    (h : ∀ a, set t a = .error .panic) (x : R) : ∃ e, (Sem.prim rd set (some r) : Sem R Tgt) x t = .err e := by
  simp only [Sem.prim, Sem.read]
  cases rd x with
  | error e => exact ⟨e, rfl⟩
  | ok y => exact ⟨.panic, by simp [Sem.act, h]⟩

theorem ValFits.err {α : Type} {r : Ty} {p : Out (α × R)} {f : α → Option Val} {i : Out (Bool × R × Tgt)}
    (h : ∀ d, f d = none) (hi : ∃ e, i = .err e) : ValFits r (p.on f) i := by
  obtain ⟨e, rfl⟩ := hi
  exact .fail h e

/-- A record into which a value is read once more. -/
theorem ref_reuse (hF : Fair we re) (hR : FullReads ro) {n k : Nat} (hk : 2 * n ≤ k) {q q' : QName} {rdf : Def} {rfs : List Field}
    (hf' : re.find q' = some rdf) (hkr : rdf.kind = .record rfs) (hna : NullsAgree we re (.ref q) (.ref q'))
    {slots : List (Option Val)} (hl : slots.length = rfs.length) (rd : R) :
    ValFits (.ref q') ((parse ro lim we (n + 1) (.ref q) rd).on fun d => resolve Datum.skippable dv we re d (.ref q) (.ref q'))
      (bodySem ro gops we re false k (interp ro gops we re false k) (.ref q) (some (.ref q')) rd (.record rfs slots)) := by
  simp only [bodySem, refSem]
  cases hf : we.find q with
  | none => simp only [parse, hf]; exact ⟨_, rfl⟩
  | some wd =>
    simp only [hf', Bool.false_or]
    by_cases hread : wd.readableBy rdf = true
    · rw [if_pos hread]
      simp only [parse, hf, parseDef, defSem, Option.map]
      have hdef : ∀ K, defAs we re q K (.ref q') = K wd.kind rdf.kind := by
        intro K; simp only [defAs, hf, hf', hread, if_true]
      cases hkw : wd.kind with
      | enum _ _ => simp [Def.readableBy, hkw, hkr] at hread
      | fixed _ => simp [Def.readableBy, hkw, hkr] at hread
      | record wfs =>
        have hru : (Ty.ref q').isUnion = false := rfl
        simp only [Out.bind_on, resolve, intoReader_of hru, hdef, hkw, hkr]
        have hfa := fields_agree (lim := lim) (dv := dv) hk (main_agree hF hR n) hF.sizes (hF.tidyR q' rdf rfs · hf' hkr ·) wfs
          (fun wf hwf i rf hfn hr => hna.next (.field hf hf' hkw hkr hwf hfn hr))
          (hF.tidyW q wd wfs · hf hkw ·) rd slots
        simp only [recordSem, Sem.noFlag, Sem.seq]
        cases hp : parseFields (parse ro lim we n) wfs rd with
        | timeout => trivial
        | err e =>
          rw [hp] at hfa
          obtain ⟨e', he⟩ := hfa
          simp only [he]
          exact ⟨e', rfl⟩
        | done x =>
          obtain ⟨ds, r1⟩ := x
          rw [hp] at hfa
          simp only [ListFits] at hfa
          simp only [Out.on]
          have hle := resolveFields_le (drop := Datum.skippable) (dv := dv) (we := we) (re := re) ds wfs rfs
            (slotsLe_none (n := rfs.length) hl)
          cases hrf : resolveFields Datum.skippable dv we re ds wfs rfs (List.replicate rfs.length none) with
          | none =>
            rw [hrf] at hle
            rw [hle] at hfa
            obtain ⟨e', he⟩ := hfa
            simp only [he]
            exact ⟨e', rfl⟩
          | some s =>
            rw [hrf] at hle
            obtain ⟨s', hs', hss⟩ := hle
            rw [hs'] at hfa
            simp only at hfa
            simp only [hfa]
            obtain ⟨hl', hs⟩ := resolveFields_slots _ hrf
            have hda := defaults_agree re lim dv (wfs := wfs) (rfs := rfs) r1 (slots := s)
              (hF.fields q' rdf rfs hf' hkr) (by simpa using hl')
              (fun i hi => ((hs i).1 hi).2)
              (fun i f hi hu => (hs i).2 ⟨by
                obtain ⟨hlt, _⟩ := List.getElem?_eq_some_iff.1 hi
                simp [List.getElem?_replicate, hlt], hu⟩)
            have hmem : ∀ x ∈ missingFields wfs rfs, rfs[x.1]? = some x.2 := fun x hx =>
              ((mem_missing (hF.fields q' rdf rfs hf' hkr)).1 hx).1
            obtain ⟨a1, a2⟩ := defaultsSem_run re lim dv r1 (rfs := rfs) (slots := s) hmem
            obtain ⟨b1, b2⟩ := defaultsSem_run re lim dv r1 (rfs := rfs) (slots := s') hmem
            by_cases hall : ∀ x ∈ missingFields wfs rfs, x.2.dflt.isSome = true
            · rw [b1 hall]
              rw [a1 hall] at hda
              cases hfd : fillDefaults dv rfs s with
              | none => rw [hfd] at hda; obtain ⟨e, he⟩ := hda; cases he
              | some vs =>
                rw [hfd] at hda
                simp only [Out.done.injEq, Prod.mk.injEq, Tgt.record.injEq, true_and] at hda
                have := setAll_le (dv := dv) (missingFields wfs rfs) hss
                rw [hda] at this
                rw [this.full]
                refine ⟨_, .inr ⟨rfl, ?_⟩⟩
                simp only [Tgt.final, Tgt.val, allSome_map_some, Option.map]
            · have hex : ∃ x ∈ missingFields wfs rfs, x.2.dflt.isSome = false := by
                apply Classical.byContradiction
                intro hno
                apply hall
                intro x hx
                cases hb : x.2.dflt.isSome with
                | true => rfl
                | false => exact absurd ⟨x, hx, hb⟩ hno
              obtain ⟨e, he⟩ := b2 hex
              obtain ⟨e', he'⟩ := a2 hex
              rw [he]
              cases hfd : fillDefaults dv rfs s with
              | none => exact ⟨_, rfl⟩
              | some vs => rw [hfd] at hda; rw [he'] at hda; cases hda
    · rw [if_neg hread]
      exact ValFits.fail (fun d => resolve_ref_other rfl fun q'' wd' rd' h1 h2 h3 => by
        cases h1; rw [hf'] at h3; rw [hf] at h2; simp at h2 h3; subst h2; subst h3; simpa using hread) _

theorem readable_record {w : Ty} {q' : QName} (h : w.readableBy we re (.ref q') = true) (hu : w.isUnion = false) : ∃ q, w = .ref q := by
  cases w <;> first
    | exact ⟨_, rfl⟩
    | (simp [Ty.isUnion] at hu; done)
    | (simp [Ty.readableBy, anyBranch] at h; done)
    | (simp [Ty.readableBy, anyBranch] at h; cases h; done)

theorem interp_reuse_record (hF : Fair we re) (hR : FullReads ro) {n k : Nat} (hk : 2 * n ≤ k) {w : Ty} {q' : QName} {rdf : Def}
    {rfs : List Field} (hf' : re.find q' = some rdf) (hkr : rdf.kind = .record rfs) (hw : w.tidy = true)
    (hna : NullsAgree we re w (.ref q')) {slots : List (Option Val)} (hl : slots.length = rfs.length) (rd : R) :
    ValFits (.ref q') ((parse ro lim we n w rd).on fun d => resolve Datum.skippable dv we re d w (.ref q'))
      (interp ro gops we re false k w (some (.ref q')) rd (.record rfs slots)) := by
  cases n with
  | zero => simp [parse, Out.on, ValFits]
  | succ n =>
    obtain ⟨k, rfl⟩ : ∃ j, k = j + 1 := ⟨k - 1, by omega⟩
    rw [interp_body rfl]
    cases w with
    | null => cases hna.null
    | ref q => exact ref_reuse hF hR (by omega) hf' hkr hna hl rd
    | union ts =>
      have hwm : Ty.tidyMembers ts = true := by simpa [Ty.tidy] using hw
      simp only [parse, bodySem, unionSem, Sem.read]
      cases readLong ro rd with
      | error e => exact ⟨e, rfl⟩
      | ok x =>
        obtain ⟨v, r1⟩ := x
        simp only
        cases ha : atIndex ts v with
        | none => exact ⟨_, rfl⟩
        | some t =>
          have hts := atIndex_some ha
          have htmem : t ∈ ts := List.mem_of_getElem? hts
          obtain ⟨htu, htt⟩ := tidyMembers_mem hwm htmem
          simp only [Out.bind_on, Sem.pick, resolve, hts]
          cases hn : t.isNull with
          | true =>
            simp only [if_true, readNull, Ty.nullable, memberSem]
            have : t = .null := by cases t <;> first | rfl | simp [Ty.isNull] at hn
            subst this
            have hno : Ty.null.readableBy we re (.ref q') = false := by simp [Ty.readableBy, anyBranch, Ty.readsNull]
            rw [hno]
            exact .fail (fun d => rfl) _
          | false =>
            simp only [memberSem, hn]
            cases hread : t.readableBy we re (.ref q') with
            | false => exact .fail (fun d => by simp) _
            | true =>
              obtain ⟨q, rfl⟩ := readable_record hread htu
              simp only [if_true]
              obtain ⟨n, rfl⟩ | rfl : (∃ m, n = m + 1) ∨ n = 0 := by cases n <;> simp
              · obtain ⟨k, rfl⟩ : ∃ j, k = j + 1 := ⟨k - 1, by omega⟩
                rw [interp_body rfl]
                exact ref_reuse hF hR (by omega) hf' hkr (hna.next (.single htmem hn rfl hread)) hl r1
              · simp [parse, Out.on, ValFits]
    | array wi => exact .fail (fun d => resolve_array_other rfl (by simp)) _
    | map wi => exact .fail (fun d => resolve_map_other rfl (by simp)) _
    | _ => exact .err (fun d => by cases d <;> rfl) (prim_panics (fun a => rfl) rd)

theorem interp_reuse_union (hF : Fair we re) (hR : FullReads ro) {n m : Nat} (hm : 2 * n ≤ m) {w : Ty} {rs : List Ty}
    (hw : w.tidy = true) (hr : Ty.tidyMembers rs = true) (hna : NullsAgree we re w (.union rs)) (tag : BitVec 64)
    (sel : Option Nat) (slots : List (Option Val)) (hlen : slots.length = rs.length) (rd : R) :
    ValFits (.union rs) ((parse ro lim we n w rd).on fun d => resolve Datum.skippable dv we re d w (.union rs))
      (interp ro gops we re false m w (some (.union rs)) rd (.union rs tag sel slots)) := by
  cases n with
  | zero => simp [parse, Out.on, ValFits]
  | succ n =>
    have ih := main_agree (lim := lim) (dv := dv) hF hR n
    obtain ⟨k, rfl⟩ : ∃ j, m = j + 1 := ⟨m - 1, by omega⟩
    have hmu : ∀ r ∈ rs, r.isUnion = false := fun r hm => (tidyMembers_mem hr hm).1
    by_cases hwu : w.isUnion = true
    · obtain ⟨ts, rfl⟩ : ∃ ts, w = .union ts := by
        cases w <;> first | exact ⟨_, rfl⟩ | simp [Ty.isUnion] at hwu
      have hwm : Ty.tidyMembers ts = true := by simpa [Ty.tidy] using hw
      show ValFits _ _ (bodySem ro gops we re false k (interp ro gops we re false k) (.union ts) (some (.union rs)) rd _)
      simp only [parse, bodySem, unionSem, Sem.read]
      cases readLong ro rd with
      | error e => exact ⟨e, rfl⟩
      | ok x =>
        obtain ⟨v, r1⟩ := x
        simp only
        cases ha : atIndex ts v with
        | none => exact ⟨_, rfl⟩
        | some t =>
          have hts := atIndex_some ha
          have htmem : t ∈ ts := List.mem_of_getElem? hts
          obtain ⟨htu, htt⟩ := tidyMembers_mem hwm htmem
          simp only [Out.bind_on, Sem.pick, resolve, hts]
          by_cases htnull : t = .null
          · subst htnull
            simp only [Ty.isNull, if_true]
            cases n with
            | zero => trivial
            | succ n =>
              simp only [parse, Out.on, memberSem, Ty.isNull, if_true, readNull]
              cases hf : findIdx (fun r => r.goName re == Ty.goName we .null) 0 rs with
              | some x =>
                simp only [Sem.nullExit]
                split
                · rename_i hn; exact ⟨_, .inl ⟨rfl, rfl, hn⟩⟩
                · rename_i hn
                  exfalso
                  obtain ⟨j, r'⟩ := x
                  have hm := findIdx_mem hf
                  have hg : r'.goName re = Ty.goName we .null := by simpa using (findIdx_getElem hf).2.2
                  exact hn (nullable_of_goName hF.plain hr hm hg)
              | none =>
                have hno : Ty.nullable (.union rs) = false := by
                  simp only [Ty.nullable]
                  rw [List.any_eq_false]
                  intro t ht
                  have := findIdx_none hf t ht
                  cases t <;> simp [Ty.isNull, Ty.goName] at this ⊢
                simp only [hno]
                cases hf2 : findIdx (Ty.null.readableBy we re) 0 rs with
                | some x =>
                  exfalso
                  obtain ⟨j, r'⟩ := x
                  have hm := findIdx_mem hf2
                  have hg : Ty.readableBy we re .null r' = true := (findIdx_getElem hf2).2.2
                  obtain ⟨h1, h2⟩ := tidyMembers_mem hr hm
                  cases r' <;> first
                    | (have := findIdx_none hf _ hm
                       simp [Ty.goName] at this; done)
                    | (simp [Ty.isUnion] at h1; done)
                    | (simp [Ty.readableBy, anyBranch, Ty.readsNull] at hg; done)
                | none => exact ⟨_, rfl⟩
          · have htn : t.isNull = false := by cases t <;> first | rfl | exact absurd rfl htnull
            simp only [htn]
            have hmem : ∀ {p : Ty → Bool} {j r'}, findIdx p 0 rs = some (j, r') → NullsAgree we re t r' → Comp we re t r' →
                ValFits (.union rs) ((parse ro lim we n t r1).on fun d =>
                    (resolve Datum.skippable dv we re d t r').map fun v => .union (BitVec.ofInt 64 j) (some v))
                  (Sem.member gops j (interp ro gops we re false k t (some r')) r1 (.union rs tag sel slots)) := by
              intro p j r' hf hnt hc
              obtain ⟨_, hj, _⟩ := findIdx_getElem hf
              have hr' := tidyMembers_mem hr (findIdx_mem hf)
              have := member_agree (lim := lim) (dv := dv) (rs := rs) (tag := tag) (sel := sel) (by simpa using hj) hr'.1 hlen
                (ih t r' k (by omega) htt hr'.2 hnt hc r1 _)
              rw [Out.on_on] at this
              exact this
            simp only [memberSem, pickBranch, htn]
            cases hf : findIdx (fun r => r.goName re == t.goName we) 0 rs with
            | some x =>
              obtain ⟨j, r'⟩ := x
              have := (findIdx_getElem hf).2.2
              exact hmem hf (hna.next (.named htmem htn hf)) (.inr (.inl (by simpa using Eq.symm (by simpa using this))))
            | none =>
              simp only
              cases hf2 : findIdx (t.readableBy we re) 0 rs with
              | some x =>
                obtain ⟨j, r'⟩ := x
                exact hmem hf2 (hna.next (.first htmem htn hf hf2)) (.inl (findIdx_getElem hf2).2.2)
              | none => exact ValFits.fail (fun d => rfl) _
    · have hwu' : w.isUnion = false := by simpa using hwu
      have hwn : w ≠ .null := by
        rintro rfl
        cases hna.null
      rw [interp_into hwu']
      simp only [resolve_into hwu' hwn hmu]
      cases hf : findIdx (w.readableBy we re) 0 rs with
      | none => exact ValFits.fail (fun d => rfl) _
      | some x =>
        obtain ⟨j, r'⟩ := x
        simp only
        obtain ⟨k, rfl⟩ : ∃ j, k = j + 1 := ⟨k - 1, by omega⟩
        have hu' := hmu r' (findIdx_mem hf)
        rw [interp_body hu']
        obtain ⟨_, hj, hp⟩ := findIdx_getElem hf
        have := member_agree (lim := lim) (dv := dv) (rs := rs) (tag := tag) (sel := sel) (by simpa using hj) hu' hlen
          (body_agree hF hR ih (by omega : 2 * n ≤ k) hw (tidyMembers_mem hr (findIdx_mem hf)).2
            (hna.next (.into hwu' hf)) hwu' hu' (.inl hp) rd _)
        rw [Out.on_on] at this
        exact this
end

/-! ### Whole calls -/

theorem resolve_record_full {drop dv we re q df fs} (hq : Env.find re q = some df) (hk : df.kind = .record fs) :
    ∀ (d : Datum) (w : Ty) (v : Val), resolve drop dv we re d w (.ref q) = some v → ∃ vs, v = .record vs ∧ vs.length = fs.length
  | .record ds, w, v, h => by
    cases w <;> first
    | (simp only [resolve] at h; cases h; done)
    | (obtain ⟨_, _, _, _, vs, _, h2, _, h4, rfl, _, h5, _⟩ := resolve_record h
       rw [hq] at h2; cases h2
       rw [hk] at h4; cases h4
       exact ⟨vs, rfl, h5⟩)
  | .union i d, w, v, h => by
    cases w <;> simp only [resolve] at h <;> try cases h
    split at h <;> try cases h
    split at h
    · simp [readNull, Ty.nullable] at h
    · split at h
      · exact resolve_record_full hq hk d _ v h
      · cases h
  | .null, w, v, h => by
    simp only [resolve, readNull, Ty.nullable] at h
    split at h <;> cases h
  | .bool _, w, v, h => by cases w <;> cases h
  | .int _, w, v, h => by cases w <;> cases h
  | .long _, w, v, h => by cases w <;> cases h
  | .float _, w, v, h => by cases w <;> cases h
  | .double _, w, v, h => by cases w <;> cases h
  | .bytes _, w, v, h => by cases w <;> cases h
  | .string _, w, v, h => by cases w <;> cases h
  | .array _, w, v, h => by cases w <;> cases h
  | .map _, w, v, h => by cases w <;> cases h
  | .fixed _, w, v, h => by
    cases w <;> simp only [resolve, intoReader, defAs, hq] at h <;> try cases h
    split at h <;> try cases h
    split at h <;> try cases h
    rename_i wd rd h1 h2 h3
    cases h2
    rw [hk] at h
    cases hw : wd.kind <;> rw [hw] at h <;> cases h
  | .enum _, w, v, h => by
    cases w <;> simp only [resolve, intoReader, defAs, hq] at h <;> try cases h
    split at h <;> try cases h
    split at h <;> try cases h
    rename_i wd rd h1 h2 h3
    cases h2
    rw [hk] at h
    cases hw : wd.kind <;> rw [hw] at h <;> cases h

/-- `v0` is a record or a union as the type at the root has it: one value for each field, or
one of the members. -/
def HoldsVal (r : Schema) (v0 : Val) : Prop :=
  (∃ q d fs vs, r.root = .ref q ∧ r.env.find q = some d ∧ d.kind = .record fs ∧ v0 = .record vs ∧ vs.length = fs.length) ∨
  (∃ rs tag x, r.root = .union rs ∧ v0 = .union tag x ∧ (x.isSome = true → tag.toNat < rs.length))

/-- What the variable holds afterwards: null at the root is not stored. -/
def heldVal (v0 : Val) : Val → Val
  | .nil => v0
  | v => v

theorem heldVal_ne {v0 v : Val} (h : v ≠ .nil) : heldVal v0 v = v := by cases v <;> first | rfl | exact absurd rfl h

section
variable {σ : Setting R} {view : R → List Byte} {w r : Schema} {prog : Program} {v0 : Val}

theorem decode_reuse (hs : Suited w r) (hR : FullReads σ.ro) (hc : compile σ.ord false w r = .ok prog) (h0 : HoldsVal r v0)
    (rd : R) (n : Nat) :
    ∃ m, ValFits r.root ((parse σ.ro σ.lim w.env n w.root rd).on fun d =>
        resolve Datum.skippable σ.dv w.env r.env d w.root r.root)
      (interp σ.ro (genOps r.env σ.lim σ.dv) w.env r.env false m w.root (some r.root) rd (.holding r.env r.root v0)) ∧
      (∀ f rd' t', interp σ.ro (genOps r.env σ.lim σ.dv) w.env r.env false m w.root (some r.root) rd
          (.holding r.env r.root v0) = .done (f, rd', t') →
        Evaluates σ.ro (genOps r.env σ.lim σ.dv) prog rd (.holding r.env r.root v0) (.ok (rd', t'))) ∧
      (∀ e, interp σ.ro (genOps r.env σ.lim σ.dv) w.env r.env false m w.root (some r.root) rd
          (.holding r.env r.root v0) = .err e →
        Evaluates σ.ro (genOps r.env σ.lim σ.dv) prog rd (.holding r.env r.root v0) (.error e)) := by
  obtain ⟨main, st, h1, h2⟩ := compile_ok hc
  obtain ⟨hcol, hnn⟩ := hs.toSound.clean h1
  have hF : Fair w.env r.env := ⟨hs.sizes, hs.tidyW, hs.tidyR, hs.plain, hs.fields⟩
  refine ⟨2 * n, ?_, run_compiled σ.ro _ hs.namesW hs.namesR hs.sizes (genOps_defaultsCommute _ _ _) h1 hcol hnn h2 _ rd _⟩
  have hna := hs.nulls
  rcases h0 with ⟨q, d, fs, vs, e1, e2, e3, rfl, e4⟩ | ⟨rs, tag, x, e1, rfl, _⟩
  · rw [e1] at hna ⊢
    have : Tgt.holding r.env (.ref q) (.record vs) = .record fs (vs.map some) := by simp only [Tgt.holding, e2, e3]
    rw [this]
    exact interp_reuse_record hF hR (Nat.le_refl _) e2 e3 hs.rootW hna (by simpa using e4) rd
  · have ht := hs.rootR
    rw [e1] at hna ht ⊢
    exact interp_reuse_union hF hR (Nat.le_refl _) hs.rootW (by simpa [Ty.tidy] using ht) hna tag _ _ (by simp) rd

theorem reuse_value (hs : Suited w r) (hd : σ.ro.Delivers view) (hc : compile σ.ord false w r = .ok prog) (h0 : HoldsVal r v0)
    {old : Field → Val → Val} (ho : ∀ f u, f.dflt.isSome = true → old f u = σ.dv f)
    {rd rd' : R} {n : Nat} {d v} (hq : parse σ.ro σ.lim w.env n w.root rd = .done (d, rd'))
    (hv : resolve Datum.skippable σ.dv w.env r.env d w.root r.root = some v) :
    DeserializesInto σ old w r v0 rd (.value (heldVal v0 v) rd') := by
  obtain ⟨m, h1, h2, h3⟩ := decode_reuse hs hd.full hc h0 rd n
  have hq0 := hq
  rw [hq] at h1
  simp only [Out.on, hv, ValFits] at h1
  by_cases hnil : v = .nil
  · subst hnil
    obtain ⟨rs, tag, x, hr, rfl, hx⟩ : ∃ rs tag x, r.root = .union rs ∧ v0 = .union tag x ∧
        (x.isSome = true → tag.toNat < rs.length) := by
      rcases h0 with ⟨q, df, fs, vs, e1, e2, e3, _⟩ | h
      · rw [e1] at hv
        obtain ⟨vs, h⟩ := resolve_record_shape e2 e3 d _ _ hv
        cases h
      · exact h
    obtain ⟨t', h | h⟩ := h1
    · have := shy_interp _ _ _ _ _ m _ _ _ _ _ _ h.1
      subst this
      refine .value hc (genOpsOn_eq ho ▸ h2 _ _ _ h.1) ?_
      rw [hr]
      cases x with
      | none => rfl
      | some u =>
        have hlt := hx rfl
        simp only [Tgt.holding, Option.map_some, Tgt.val, slotAt]
        rw [List.getElem?_set_self (by simpa using hlt), if_pos (by simp)]
        rfl
    · exact (root_null_asks hs hr hq0 hv h.1).elim
  · rw [heldVal_ne hnil]
    obtain ⟨t', h | h⟩ := h1
    · exact absurd h.2.1 hnil
    · exact .value hc (genOpsOn_eq ho ▸ h2 _ _ _ h.1) (final_notMap h.2 (resolve_top_notMap hs.top hv))

theorem reuse_failed (hs : Suited w r) (hd : σ.ro.Delivers view) (hc : compile σ.ord false w r = .ok prog) (h0 : HoldsVal r v0)
    {old : Field → Val → Val} (ho : ∀ f u, f.dflt.isSome = true → old f u = σ.dv f)
    {rd : R} (hp : ReadsAs σ.ro.byteReader σ.lim w.env w.root (view rd) none ∨
      ∃ d z, ReadsAs σ.ro.byteReader σ.lim w.env w.root (view rd) (some (d, z)) ∧
        resolve Datum.skippable σ.dv w.env r.env d w.root r.root = none) :
    DeserializesInto σ old w r v0 rd .failed := by
  rcases hp with ⟨n, e, hn⟩ | ⟨d, z, ⟨n, hn⟩, hv⟩
  · obtain ⟨m, h1, h2, h3⟩ := decode_reuse hs hd.full hc h0 rd n
    rw [parse_view_err hd hn] at h1
    simp only [Out.on, ValFits] at h1
    obtain ⟨e, h⟩ := h1
    exact .failed hc (genOpsOn_eq ho ▸ h3 _ h)
  · obtain ⟨rd', hq, hz⟩ := parse_view hd hn
    obtain ⟨m, h1, h2, h3⟩ := decode_reuse hs hd.full hc h0 rd n
    rw [hq] at h1
    simp only [Out.on, hv, ValFits] at h1
    obtain ⟨e, h⟩ := h1
    exact .failed hc (genOpsOn_eq ho ▸ h3 _ h)
end
end Verif
