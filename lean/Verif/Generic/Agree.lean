import Verif.Generic.Target
import Verif.Gen.Agreement
import Verif.Compiler.Refuse
set_option linter.unusedSimpArgs false
set_option linter.unusedVariables false
/-
`interp` on the targets of package generic leaves the value that `showDatum` says, for data
that can be read (`resolve`).
-/
namespace Verif
variable {R : Type}

theorem mapInserts_append {α : Type} : ∀ (es fs m : List (List Byte × α)),
    mapInserts m (es ++ fs) = mapInserts (mapInserts m es) fs
  | [], _, _ => rfl
  | (k, v) :: es, fs, m => by simp only [List.cons_append, mapInserts, mapInserts_append es fs]

theorem mapOf_snoc {α : Type} (es : List (List Byte × α)) (k : List Byte) (v : α) :
    mapOf (es ++ [(k, v)]) = mapInsert k v (mapOf es) := by
  simp [mapOf, mapInserts_append, mapInserts]

theorem showDatum_nil {we re : Env} {d : Datum} (h : d.isNil = true) (w r : Ty) :
    showDatum we re d w r = some .nil := by
  unfold Datum.isNil at h
  split at h
  · simp [showDatum, Datum.isNil]
  · simp at h

/-! ### Blocks -/

section
variable {α β T : Type}

/-- The piece `i` leaves the target with `sh` of what `p` reads, if that is `ok`. -/
def GStep (ok : α → Bool) (sh : α → β) (S : List β → T) (bs : List β) (p : Out (α × R)) (i : Out (Bool × R × T)) : Prop :=
  ∀ x rd', p = .done (x, rd') → ok x = true → ∃ f, i = .done (f, rd', S (bs ++ [sh x]))

theorem grep_agree {p : R → Out (α × R)} {a : Sem R T} {ok : α → Bool} {sh : α → β} {S : List β → T}
    (h : ∀ bs rd, GStep ok sh S bs (p rd) (a rd (S bs))) :
    ∀ (k : Nat) (rd : R) (bs : List β) (xs : List α) (rd' : R), parseRep p k rd = .done (xs, rd') → xs.all ok = true →
      Sem.rep a k rd (S bs) = .done (false, rd', S (bs ++ xs.map sh)) := by
  intro k
  induction k with
  | zero =>
    intro rd bs xs rd' hp _
    simp only [parseRep, Out.done.injEq, Prod.mk.injEq] at hp
    obtain ⟨rfl, rfl⟩ := hp
    simp [Sem.rep, Sem.skip]
  | succ k ih =>
    intro rd bs xs rd' hp hok
    unfold parseRep at hp
    obtain ⟨⟨x, r1⟩, hx, h2⟩ := Out.bind_done hp
    obtain ⟨⟨ys, r2⟩, hy, h3⟩ := Out.bind_done h2
    simp only [Out.done.injEq, Prod.mk.injEq] at h3
    obtain ⟨rfl, rfl⟩ := h3
    simp only [List.all_cons, Bool.and_eq_true] at hok
    obtain ⟨f, hf⟩ := h bs rd x r1 hx hok.1
    have := ih r1 (bs ++ [sh x]) ys r2 hy hok.2
    simp only [Sem.rep, Sem.seq, Sem.noFlag, hf, this]
    simp

theorem gblocks_agree {ro : ReaderOps R} {fo : FieldOps T} {lim : Nat} {p : R → Out (α × R)} {a : Sem R T}
    {ok : α → Bool} {sh : α → β} {S : List β → T}
    (h : ∀ bs rd, GStep ok sh S bs (p rd) (a rd (S bs)))
    (hS : ∀ bs c, ¬ (bs.isEmpty = true ∧ (c.toInt < 0 ∨ (lim : Int) < c.toInt)) → fo.hintSize (S bs) c = .ok (S bs)) :
    ∀ (n m : Nat) (rd : R) (bs : List β), n ≤ m → ∀ (xs : List α) (rd' : R),
      parseBlocks ro lim p n bs.isEmpty rd = .done (xs, rd') → xs.all ok = true →
      Sem.blocks ro fo a m rd (S bs) = .done (false, rd', S (bs ++ xs.map sh)) := by
  intro n
  induction n with
  | zero => intro m rd bs _ xs rd' hp; simp [parseBlocks] at hp
  | succ n ih =>
    intro m rd bs hm xs rd' hp hok
    obtain ⟨m, rfl⟩ : ∃ k, m = k + 1 := ⟨m - 1, by omega⟩
    unfold parseBlocks at hp
    unfold Sem.blocks
    simp only [Sem.read]
    cases h1 : readLong ro rd with
    | error e => rw [h1] at hp; simp at hp
    | ok x =>
      obtain ⟨c, r1⟩ := x
      rw [h1] at hp
      simp only at hp ⊢
      by_cases hc : c = 0
      · rw [if_pos hc] at hp
        simp only [Out.done.injEq, Prod.mk.injEq] at hp
        obtain ⟨rfl, rfl⟩ := hp
        rw [if_pos hc]
        simp [Sem.skip]
      · rw [if_neg hc] at hp
        rw [if_neg hc]
        have key : ∀ c : BitVec 64, c ≠ 0 → ∀ r1, parseBlocks.items ro lim p n bs.isEmpty c r1 = .done (xs, rd') →
            Sem.seq (.act fun t => fo.hintSize t c) (.seq (.rep a c.toNat) (Sem.blocks ro fo a m)) r1 (S bs) =
              .done (false, rd', S (bs ++ xs.map sh)) := by
          intro c hc r1 hp
          have hpos : c.toNat ≠ 0 := fun h => hc (BitVec.eq_of_toNat_eq (by simpa using h))
          unfold parseBlocks.items at hp
          split at hp
          · simp at hp
          · rename_i hbad
            obtain ⟨⟨ys, r2⟩, hy, h2⟩ := Out.bind_done hp
            obtain ⟨⟨zs, r3⟩, hz, h3⟩ := Out.bind_done h2
            simp only [Out.done.injEq, Prod.mk.injEq] at h3
            obtain ⟨rfl, rfl⟩ := h3
            simp only [List.all_append, Bool.and_eq_true] at hok
            have e1 := grep_agree h c.toNat r1 bs ys r2 hy hok.1
            have hne : (bs ++ ys.map sh).isEmpty = false := by
              have := parseRep_length hy
              cases ys with
              | nil => simp at this; omega
              | cons y ys => simp
            have e2 := ih m r2 (bs ++ ys.map sh) (by omega) zs r3 (by rw [hne]; exact hz) hok.2
            simp only [Sem.seq, Sem.act, hS bs c hbad, e1, e2]
            simp
        split at hp
        · rename_i hpos
          rw [if_pos hpos]
          exact key c hc r1 hp
        · rename_i hpos
          rw [if_neg hpos]
          simp only [Sem.read]
          cases h2 : readLong ro r1 with
          | error e => rw [h2] at hp; simp at hp
          | ok x =>
            obtain ⟨_, r2⟩ := x
            rw [h2] at hp
            exact key (-c) (by simpa using hc) r2 hp
end

/-! ### Parents -/

/-- The piece `i` leaves a target of type `r` that shows what `p` reads, if that is `ok`;
nothing is stored for a null, which is left to the parent. -/
def GFits (re : Env) (r : Ty) (ok : Datum → Bool) (sh : Datum → Option GVal) (p : Out (Datum × R))
    (i : Out (Bool × R × GTgt)) : Prop :=
  ∀ d rd', p = .done (d, rd') → ok d = true → ∃ t', i = .done (d.isNil, rd', t') ∧
    (d.isNil = false → t'.datum = sh d) ∧ (d.isNil = true → t' = .new re r ∧ r.nullable = true)

section
variable {ro : ReaderOps R} {lim : Nat} {we re : Env}

local notation "gfo" => gOps re lim

theorem nullable_union {r : Ty} (h : r.nullable = true) : ∃ ts, r = .union ts := by
  cases r <;> first | exact ⟨_, rfl⟩ | (simp [Ty.nullable] at h; done)

theorem new_nullable {r : Ty} (h : r.nullable = true) : (GTgt.new re r).datum = none := by
  obtain ⟨ts, rfl⟩ := nullable_union h
  rfl

theorem gitem_agree {ri : Ty} {a : Sem R GTgt} {p : Out (Datum × R)} {ok : Datum → Bool} {sh : Datum → Option GVal} {rd : R}
    {bs : List (Option GVal)} (h : GFits re ri ok sh p (a rd (.new re ri))) :
    GStep ok (fun d => if d.isNil then none else sh d) (fun bs => .array ri bs) bs p (itemSem gfo a rd (.array ri bs)) := by
  intro d rd' hp hok
  obtain ⟨t', hi, h1, h2⟩ := h d rd' hp hok
  refine ⟨false, ?_⟩
  simp only [itemSem, Sem.sub, gOps, gAppendArray, hi, gPutArray]
  cases hn : d.isNil with
  | false => simp [nullIf, h1 hn]
  | true =>
    obtain ⟨rfl, hr⟩ := h2 hn
    simp [nullIf, gOps, gNullField, new_nullable hr]

theorem gentry_agree {ri : Ty} {a : Sem R GTgt} {p : R → Out (Datum × R)} {ok : Datum → Bool} {sh : Datum → Option GVal} {rd : R}
    {bs : List (List Byte × Option GVal)} (h : ∀ rd, GFits re ri ok sh (p rd) (a rd (.new re ri))) :
    GStep (fun e => ok e.2) (fun e => (e.1, if e.2.isNil then none else sh e.2)) (fun bs => .map ri (mapOf bs)) bs
      (parseEntry ro p rd) (entrySem ro gfo a rd (.map ri (mapOf bs))) := by
  intro e rd' hp hok
  unfold parseEntry at hp
  unfold entrySem Sem.read
  cases hk : readString ro rd with
  | error e => rw [hk] at hp; simp at hp
  | ok x =>
    obtain ⟨k, r1⟩ := x
    rw [hk] at hp
    simp only at hp ⊢
    obtain ⟨⟨d, r2⟩, hd, h3⟩ := Out.bind_done hp
    simp only [Out.done.injEq, Prod.mk.injEq] at h3
    obtain ⟨rfl, rfl⟩ := h3
    obtain ⟨t', hi, h1, h2⟩ := h r1 d r2 hd hok
    refine ⟨false, ?_⟩
    simp only [Sem.sub, gOps, gAppendMap, hi, gPutMap, mapOf_snoc]
    cases hn : d.isNil with
    | false => simp [nullIf, h1 hn]
    | true =>
      obtain ⟨rfl, hr⟩ := h2 hn
      simp [nullIf, gOps, gNullField, new_nullable hr]

theorem gfield_agree {rfs : List Field} {slots : List (Option GVal)} (hl : slots.length = rfs.length) {i : Nat} {rf : Field} (hf : rfs[i]? = some rf)
    {a : Sem R GTgt} {p : Out (Datum × R)} {ok : Datum → Bool} {sh : Datum → Option GVal} (hsh : ∀ d, d.isNil = true → sh d = some .nil)
    {rd : R} (h : GFits re rf.ty ok sh p (a rd (.new re rf.ty))) {d : Datum} {rd' : R} (hp : p = .done (d, rd')) (hok : ok d = true) :
    Sem.field gfo i a rd (.record rfs slots) = .done (false, rd', .record rfs (slots.set i (sh d))) := by
  have h0 : ¬ ((i : Int) < 0) := by omega
  have hi : i < rfs.length := (List.getElem?_eq_some_iff.1 hf).1
  obtain ⟨t', he, h1, h2⟩ := h d rd' hp hok
  simp only [Sem.field, Sem.sub, gOps, gGet, h0, if_false, Int.toNat_natCast, hf, he, gPut]
  cases hn : d.isNil with
  | false => simp [nullIf, h1 hn]
  | true =>
    have : ¬ (rfs.length ≤ i) := by omega
    simp [nullIf, gOps, gNullField, hsh d hn, hl, this, h0]

theorem gmember_agree {rs : List Ty} {j : Nat} {r' : Ty} (hj : rs[j]? = some r') (hu : r'.isUnion = false)
    {a : Sem R GTgt} {p : Out (Datum × R)} {ok : Datum → Bool} {sh : Datum → Option GVal} {rd : R} {o : Option (Option GVal)}
    (h : GFits re r' ok sh p (a rd (.new re r'))) {d : Datum} {rd' : R} (hp : p = .done (d, rd')) (hok : ok d = true) :
    d.isNil = false ∧ ∃ t', Sem.member gfo j a rd (.union rs o) = .done (false, rd', t') ∧ t'.datum = sh d := by
  have h0 : ¬ ((j : Int) < 0) := by omega
  obtain ⟨t', he, h1, h2⟩ := h d rd' hp hok
  have hn : d.isNil = false := by
    cases hn : d.isNil with
    | false => rfl
    | true =>
      obtain ⟨ts, rfl⟩ := nullable_union (h2 hn).2
      simp [Ty.isUnion] at hu
  refine ⟨hn, .union rs (some t'.datum), ?_, h1 hn⟩
  rw [hn] at he
  simp only [Sem.member, Sem.seq, Sem.act, Sem.field, Sem.sub, gOps, gSetLong, gGet, h0, if_false, Int.toNat_natCast, hj, he, gPut]
  simp [nullIf]

/-! ### Leaves -/

theorem gprim_agree {α : Type} {rdr : R → Except Err (α × R)} {set : GTgt → α → Except Err GTgt} {g : α → Datum}
    {ok : Datum → Bool} {sh : Datum → Option GVal} {r : Ty} {rd : R} (hg : ∀ a, (g a).isNil = false)
    (h : ∀ a, ok (g a) = true → ∃ t', set (.new re r) a = .ok t' ∧ t'.datum = sh (g a)) :
    GFits re r ok sh (lift g (rdr rd)) (Sem.prim rdr set (some r) rd (.new re r)) := by
  intro d rd' hp hok
  simp only [Sem.prim, Sem.read, Option.isSome, if_true]
  cases hr : rdr rd with
  | error e => rw [hr] at hp; simp [lift] at hp
  | ok x =>
    obtain ⟨a, r1⟩ := x
    rw [hr] at hp
    simp only [lift, Out.done.injEq, Prod.mk.injEq] at hp
    obtain ⟨rfl, rfl⟩ := hp
    obtain ⟨t', h1, h2⟩ := h a hok
    exact ⟨t', by simp only [Sem.act, h1, hg], fun _ => h2, fun hn => by rw [hg] at hn; simp at hn⟩

/-! ### Fields -/

/-- The slots of a record target. -/
def flatSlots (s : List (Option (Option GVal))) : List (Option GVal) := s.map Option.join

theorem flat_set (s : List (Option (Option GVal))) (i : Nat) (o : Option GVal) :
    (flatSlots s).set i o = flatSlots (s.set i (some o)) := by
  simp [flatSlots, List.map_set]

/-- The same slots are taken. -/
def SameTaken {α β : Type} (s : List (Option α)) (g : List (Option β)) : Prop :=
  s.map Option.isSome = g.map Option.isSome

theorem SameTaken.set {α β : Type} {s : List (Option α)} {g : List (Option β)} (h : SameTaken s g) (i : Nat) (a : α) (b : β) :
    SameTaken (s.set i (some a)) (g.set i (some b)) := by
  unfold SameTaken at *
  simp [List.map_set, h]

theorem SameTaken.length {α β : Type} {s : List (Option α)} {g : List (Option β)} (h : SameTaken s g) : s.length = g.length := by
  simpa using congrArg List.length h

theorem SameTaken.none {α β : Type} {s : List (Option α)} {g : List (Option β)} (h : SameTaken s g) (i : Nat) :
    s[i]? = some none ↔ g[i]? = some none := by
  have := congrArg (fun l => l[i]?) h
  simp only [List.getElem?_map] at this
  cases h1 : s[i]? with
  | none => cases h2 : g[i]? with
    | none => simp
    | some b => rw [h1, h2] at this; simp at this
  | some a => cases h2 : g[i]? with
    | none => rw [h1, h2] at this; simp at this
    | some b =>
      rw [h1, h2] at this
      cases a <;> cases b <;> simp at this ⊢

variable (ro lim we re) in
/-- The agreement, for data up to a depth. -/
def MainG (dv : Field → Val) (n : Nat) : Prop := ∀ (w r : Ty) (m : Nat), 2 * n ≤ m → w.tidy = true →
  r.tidy = true ∧ NullsAgree we re w r → ∀ (rd : R),
  GFits re r (fun d => (resolve Datum.skippable dv we re d w r).isSome) (fun d => showDatum we re d w r)
    (parse ro lim we n w rd) (interp ro gfo we re false m w (some r) rd (.new re r))

variable {dv : Field → Val}

theorem gfields_agree {n m : Nat} (hm : 2 * n ≤ m) (ih : MainG ro lim we re dv n) (hz : SizesOK we)
    {rfs : List Field} (htr : ∀ f ∈ rfs, f.ty.tidy = true) :
    ∀ (wfs : List Field), (∀ wf ∈ wfs, ∀ i rf, fieldByName rfs wf.name = some (i, rf) →
      wf.ty.readableBy we re rf.ty = true → NullsAgree we re wf.ty rf.ty) →
    (∀ f ∈ wfs, f.ty.tidy = true) → ∀ (rd : R) (vslots s : List (Option Val)) (slots : List (Option (Option GVal))),
    SameTaken vslots slots → slots.length = rfs.length → ∀ ds rd',
    parseFields (parse ro lim we n) wfs rd = .done (ds, rd') →
    resolveFields Datum.skippable dv we re ds wfs rfs vslots = some s →
    fieldsSem gfo we re (interp ro gfo we re false m) (some rfs) wfs rd (.record rfs (flatSlots slots)) =
      .done (false, rd', .record rfs (flatSlots (showFields we re ds wfs rfs slots))) ∧
    SameTaken s (showFields we re ds wfs rfs slots) ∧ (showFields we re ds wfs rfs slots).length = rfs.length := by
  intro wfs
  induction wfs with
  | nil =>
    intro _ _ rd vslots s slots hst hl ds rd' hp hres
    simp only [parseFields, Out.done.injEq, Prod.mk.injEq] at hp
    obtain ⟨rfl, rfl⟩ := hp
    simp only [resolveFields, Option.some.injEq] at hres
    subst hres
    exact ⟨by simp [fieldsSem, Sem.skip, showFields], by simpa [showFields] using hst, by simpa [showFields] using hl⟩
  | cons w wfs ihf =>
    intro hna htw rd vslots s slots hst hl ds rd' hp hres
    have ihf' := ihf (fun f hf => hna f (by simp [hf])) (fun f hf => htw f (by simp [hf]))
    have hwt := htw w (by simp)
    unfold parseFields at hp
    obtain ⟨⟨d, r1⟩, hd, h2⟩ := Out.bind_done hp
    obtain ⟨⟨ds', r2⟩, hds, h3⟩ := Out.bind_done h2
    simp only [Out.done.injEq, Prod.mk.injEq] at h3
    obtain ⟨rfl, rfl⟩ := h3
    simp only [fieldsSem, Option.bind]
    unfold resolveFields at hres
    simp only at hres
    cases hf : fieldByName rfs w.name with
    | none =>
      rw [hf] at hres
      simp only at hres ⊢
      cases hsk : d.skippable with
      | false => rw [hsk] at hres; simp at hres
      | true =>
        rw [hsk] at hres
        simp only [if_true] at hres
        have hs := skip_agree_of ro lim gfo (.record rfs (flatSlots slots)) we re (fun _ => rfl) hz n w.ty m hm rd
        rw [hd] at hs
        obtain ⟨h4, h5, h6⟩ := ihf' r1 vslots s slots hst hl ds' r2 hds hres
        simp only [Sem.seq, hs.1 hsk, h4, showFields, hf]
        exact ⟨by simp, h5, h6⟩
    | some x =>
      obtain ⟨i, rf⟩ := x
      rw [hf] at hres
      simp only at hres ⊢
      have hi := fieldByName_getElem hf
      by_cases hread : w.ty.readableBy we re rf.ty = true
      · rw [if_pos hread] at hres ⊢
        cases hr1 : resolve Datum.skippable dv we re d w.ty rf.ty with
        | none => rw [hr1] at hres; simp at hres
        | some v =>
          rw [hr1] at hres
          simp only at hres
          have h1 := gfield_agree (lim := lim) (re := re) (slots := flatSlots slots) (by simpa [flatSlots] using hl) hi
            (fun d hn => showDatum_nil hn w.ty rf.ty)
            (ih w.ty rf.ty m hm hwt ⟨htr rf (fieldByName_mem hf), hna w (by simp) i rf hf hread⟩ rd) hd (by simp [hr1])
          obtain ⟨h4, h5, h6⟩ := ihf' r1 _ s _ (hst.set i v (showDatum we re d w.ty rf.ty)) (by simpa using hl) ds' r2 hds hres
          simp only [Sem.seq, h1, flat_set, h4, showFields, hf]
          exact ⟨by simp, h5, h6⟩
      · rw [if_neg hread] at hres; simp at hres

theorem gdefaults_run {rfs : List Field} (rd : R) : ∀ {l : List (Nat × Field)} {slots : List (Option (Option GVal))},
    (∀ x ∈ l, rfs[x.1]? = some x.2) → (∀ x ∈ l, x.2.dflt.isSome = true) →
    defaultsSem gfo l rd (.record rfs (flatSlots slots)) =
      .done (false, rd, .record rfs (flatSlots (setAll (fun f => f.dflt.map GVal.json) slots l))) := by
  intro l
  induction l with
  | nil => intro s _ _; rfl
  | cons x l ih =>
    intro s h hd
    obtain ⟨i, f⟩ := x
    have hf : rfs[i]? = some f := h (i, f) (by simp)
    have h0 : ¬ ((i : Int) < 0) := by omega
    obtain ⟨j, hj⟩ := Option.isSome_iff_exists.1 (hd (i, f) (by simp))
    simp only at hj
    have := ih (slots := s.set i (some (f.dflt.map GVal.json))) (fun x hx => h x (by simp [hx])) (fun x hx => hd x (by simp [hx]))
    simp only [defaultsSem, Sem.seq, Sem.act, setAll]
    have hstep : gSetDefault (.record rfs (flatSlots s)) (i : Int) = .ok (.record rfs (flatSlots (s.set i (some (f.dflt.map GVal.json))))) := by
      simp only [gSetDefault, h0, if_false, Int.toNat_natCast, hf, hj]
      rw [← flat_set]; simp
    have e : (gOps re lim).setDefault (.record rfs (flatSlots s)) (i : Int) = _ := hstep
    rw [e]
    simp only [this]
    simp

theorem fillRaw_eq : ∀ (fs : List Field) (s : List (Option (Option GVal))),
    flatSlots ((List.zipWith (fun f o => Option.getD o (f.dflt.map GVal.json)) fs s).map some) = fillRaw fs s
  | [], s => by simp [flatSlots, fillRaw]
  | _ :: _, [] => by simp [flatSlots, fillRaw]
  | f :: fs, o :: s => by
    have := fillRaw_eq fs s
    simp only [flatSlots, List.zipWith_cons_cons, List.map_cons, fillRaw] at this ⊢
    rw [this]
    cases o <;> rfl

theorem fillDefaults_isSome {fs : List Field} : ∀ {s : List (Option Val)} {vs : List Val}, fillDefaults dv fs s = some vs →
    ∀ (i : Nat) (f : Field), fs[i]? = some f → s[i]? = some none → f.dflt.isSome = true := by
  intro s vs h i f hf hs
  cases hd : f.dflt.isSome with
  | true => rfl
  | false => rw [fillDefaults_none hf hs hd] at h; simp at h

/-! ### Enums -/

/-- Conditions on the definitions. -/
structure GFair (we re : Env) : Prop where
  sizes : SizesOK we
  tidyW : TidyFields we
  tidyR : TidyFields re
  fields : FieldsOK re

/-- No enum of the reader has more symbols than an `int32` can number. -/
def EnumsOK (env : Env) : Prop := ∀ q d ss dd, env.find q = some d → d.kind = .enum ss dd → ss.length ≤ 2 ^ 31

theorem symbolIndexFrom_at {ss : List Str} {s : Str} : ∀ {k n : Nat}, symbolIndexFrom k ss s = some n →
    ∃ i, n = k + i ∧ ss[i]? = some s := by
  induction ss with
  | nil => intro k n h; cases h
  | cons x ss ih =>
    intro k n h
    simp only [symbolIndexFrom] at h
    split at h
    · rename_i hx
      simp only [Option.some.injEq] at h
      exact ⟨0, by omega, by simp_all⟩
    · obtain ⟨i, h1, h2⟩ := ih h
      exact ⟨i + 1, by omega, by simpa using h2⟩

theorem gsetInt_enum {ss : List Str} (hl : ss.length ≤ 2 ^ 31) {s : Str} {j : Nat} (h : symbolIndex ss s = some j) (v : Str) :
    gSetInt (.enum ss v) (BitVec.ofInt 32 j) = .ok (.enum ss s) := by
  obtain ⟨i, h1, h2⟩ := symbolIndexFrom_at h
  have hj : j = i := by omega
  subst hj
  have hlt : j < ss.length := (List.getElem?_eq_some_iff.1 h2).1
  have hi : (BitVec.ofInt 32 (j : Int)).toInt = j := by
    rw [BitVec.toInt_ofInt]
    simp only [Int.bmod_def]
    omega
  simp only [gSetInt, hi]
  rw [if_neg (by omega)]
  simp [h2]

/-! ### Bodies -/

theorem showItems_eq (w r : Ty) : ∀ ds, showItems we re ds w r = ds.map fun d => if d.isNil then none else showDatum we re d w r
  | [] => by simp [showItems]
  | d :: ds => by simp [showItems, showItems_eq w r ds]

theorem showEntries_eq (w r : Ty) : ∀ es, showEntries we re es w r =
    es.map fun e => (e.1, if e.2.isNil then none else showDatum we re e.2 w r)
  | [] => by simp [showEntries]
  | (k, d) :: es => by simp [showEntries, showEntries_eq w r es]

theorem stepAll_isSome {α β : Type} {f : α → Option β} : ∀ {xs : List α}, (stepAll f xs).isSome = xs.all fun x => (f x).isSome
  | [] => rfl
  | x :: xs => by
    simp only [stepAll, List.all_cons]
    cases f x with
    | none => rfl
    | some b => simp [stepAll_isSome (xs := xs)]

theorem readerOf_of {w r : Ty} (h : r.isUnion = false) : readerOf we re w r = r := by
  cases r <;> first | rfl | (simp [Ty.isUnion] at h; done)

theorem gbody_agree (hF : GFair we re) (hE : EnumsOK re) {n k : Nat} (ih : MainG ro lim we re dv n) (hk : 2 * n ≤ k)
    {w r : Ty} (hw : w.tidy = true) (hr : r.tidy = true ∧ NullsAgree we re w r) (hwu : w.isUnion = false) (hru : r.isUnion = false) (rd : R) :
    GFits re r (fun d => (resolve Datum.skippable dv we re d w r).isSome) (fun d => showDatum we re d w r)
      (parse ro lim we (n + 1) w rd)
      (bodySem ro gfo we re false k (interp ro gfo we re false k) w (some r) rd (.new re r)) := by
  have prim : ∀ {α : Type} (rdr : R → Except Err (α × R)) (set : GTgt → α → Except Err GTgt) (g : α → Datum),
      (∀ a, (g a).isNil = false) → (∀ a, (resolve Datum.skippable dv we re (g a) w r).isSome = true →
        ∃ t', set (.new re r) a = .ok t' ∧ t'.datum = showDatum we re (g a) w r) →
      GFits re r (fun d => (resolve Datum.skippable dv we re d w r).isSome) (fun d => showDatum we re d w r)
        (lift g (rdr rd)) (Sem.prim rdr set (some r) rd (.new re r)) := fun rdr set g h1 h2 => gprim_agree h1 h2
  cases w with
  | null =>
    cases hr.2.null
    intro d rd' hp hok
    simp only [parse, Out.done.injEq, Prod.mk.injEq] at hp
    obtain ⟨rfl, rfl⟩ := hp
    exact ⟨.prim .nil, rfl, fun _ => by simp [GTgt.datum, showDatum], fun h => by simp [Datum.isNil] at h⟩
  | union ts => simp [Ty.isUnion] at hwu
  | bool =>
    refine prim _ _ _ (fun _ => rfl) fun a h => ?_
    simp only [resolve, intoReader_of hru] at h
    cases r <;> first | (simp [boolAs] at h; done) | exact ⟨_, rfl, by simp [GTgt.datum, showDatum]⟩
  | int =>
    refine prim _ _ _ (fun _ => rfl) fun a h => ?_
    simp only [resolve, intoReader_of hru] at h
    cases r <;> first | (simp [intAs] at h; done) | exact ⟨_, rfl, by simp [GTgt.datum, showDatum]⟩
  | long =>
    refine prim _ _ _ (fun _ => rfl) fun a h => ?_
    simp only [resolve, intoReader_of hru] at h
    cases r <;> first | (simp [longAs] at h; done) | exact ⟨_, rfl, by simp [GTgt.datum, showDatum]⟩
  | float =>
    refine prim _ _ _ (fun _ => rfl) fun a h => ?_
    simp only [resolve, intoReader_of hru] at h
    cases r <;> first | (simp [floatAs] at h; done) | exact ⟨_, rfl, by simp [GTgt.datum, showDatum]⟩
  | double =>
    refine prim _ _ _ (fun _ => rfl) fun a h => ?_
    simp only [resolve, intoReader_of hru] at h
    cases r <;> first | (simp [doubleAs] at h; done) | exact ⟨_, rfl, by simp [GTgt.datum, showDatum]⟩
  | bytes =>
    refine prim _ _ _ (fun _ => rfl) fun a h => ?_
    simp only [resolve, intoReader_of hru] at h
    cases r <;> first | (simp [octetsAs] at h; done) | exact ⟨_, rfl, by simp [GTgt.datum, showDatum]⟩
  | string =>
    refine prim _ _ _ (fun _ => rfl) fun a h => ?_
    simp only [resolve, intoReader_of hru] at h
    cases r <;> first | (simp [octetsAs] at h; done) | exact ⟨_, rfl, by simp [GTgt.datum, showDatum]⟩
  | array wi =>
    intro d rd' hp hok
    simp only at hok
    by_cases hra : ∃ ri, r = .array ri
    · obtain ⟨ri, rfl⟩ := hra
      have hwi : wi.tidy = true := by simpa [Ty.tidy] using hw
      have hri : ri.tidy = true := by simpa [Ty.tidy] using hr.1
      simp only [parse] at hp
      obtain ⟨⟨ds, r1⟩, hd, h3⟩ := Out.bind_done hp
      simp only [Out.done.injEq, Prod.mk.injEq] at h3
      obtain ⟨rfl, rfl⟩ := h3
      simp only [resolve, intoReader_of hru, resolveItems_eq, Option.isSome_map, stepAll_isSome] at hok
      have hb := gblocks_agree (ro := ro) (fo := gfo) (lim := lim) (p := parse ro lim we n wi)
        (a := itemSem gfo (interp ro gfo we re false k wi (some ri)))
        (S := fun bs => .array ri bs)
        (fun bs rd => gitem_agree (ih wi ri k hk hwi ⟨hri, hr.2.next .item⟩ rd))
        (by
          intro bs c hnb
          have : ¬ (bs = [] ∧ (c.toInt < 0 ∨ (lim : Int) < c.toInt)) := by simpa using hnb
          simp only [gOps, gHintSize, if_neg this])
        n k rd [] (by omega) ds r1 (by simpa using hd) hok
      refine ⟨_, hb, fun _ => ?_, fun h => by simp [Datum.isNil] at h⟩
      simp only [GTgt.datum, showDatum, showItems_eq, readerOf_of hru, Ty.itemOr, List.nil_append]
    · rw [resolve_array_other hru fun ri h => hra ⟨ri, h⟩] at hok
      simp at hok
  | map wi =>
    intro d rd' hp hok
    simp only at hok
    by_cases hra : ∃ ri, r = .map ri
    · obtain ⟨ri, rfl⟩ := hra
      have hwi : wi.tidy = true := by simpa [Ty.tidy] using hw
      have hri : ri.tidy = true := by simpa [Ty.tidy] using hr.1
      simp only [parse] at hp
      obtain ⟨⟨ds, r1⟩, hd, h3⟩ := Out.bind_done hp
      simp only [Out.done.injEq, Prod.mk.injEq] at h3
      obtain ⟨rfl, rfl⟩ := h3
      simp only [resolve, intoReader_of hru, resolveEntries_eq, Option.isSome_map, stepAll_isSome] at hok
      have hb := gblocks_agree (ro := ro) (fo := gfo) (lim := lim) (p := parseEntry ro (parse ro lim we n wi))
        (a := entrySem ro gfo (interp ro gfo we re false k wi (some ri)))
        (S := fun bs => .map ri (mapOf bs))
        (fun bs rd => gentry_agree (fun rd => ih wi ri k hk hwi ⟨hri, hr.2.next .value⟩ rd))
        (by intro bs c hnb; rfl)
        n k rd [] (by omega) ds r1 (by simpa using hd) hok
      refine ⟨_, hb, fun _ => ?_, fun h => by simp [Datum.isNil] at h⟩
      simp only [GTgt.datum, showDatum, showEntries_eq, readerOf_of hru, Ty.itemOr, List.nil_append, mapOf]
    · rw [resolve_map_other hru fun ri h => hra ⟨ri, h⟩] at hok
      simp at hok
  | ref q =>
    intro d rd' hp hok
    simp only at hok
    by_cases hra : ∃ q', r = .ref q'
    · obtain ⟨q', rfl⟩ := hra
      simp only [bodySem, refSem]
      cases hf : we.find q with
      | none => simp only [parse, hf] at hp; simp at hp
      | some wd =>
        simp only
        cases hf' : re.find q' with
        | none =>
          rw [resolve_ref_other hru fun q'' wd rd h1 h2 h3 => by cases h1; rw [hf'] at h3; simp at h3] at hok
          simp at hok
        | some rdf =>
          simp only [Bool.false_or]
          by_cases hread : wd.readableBy rdf = true
          · rw [if_pos hread]
            simp only [parse, hf, parseDef] at hp
            simp only [defSem, Option.map]
            have hdef : ∀ K, defAs we re q K (.ref q') = K wd.kind rdf.kind := by
              intro K; simp only [defAs, hf, hf', hread, if_true]
            have hkinw : (Ty.ref q).kindIn we = some wd.kind := by simp [Ty.kindIn, hf]
            have hkinr : (Ty.ref q').kindIn re = some rdf.kind := by simp [Ty.kindIn, hf']
            cases hkw : wd.kind with
            | record wfs =>
              cases hkr : rdf.kind with
              | record rfs =>
                rw [hkw] at hp
                simp only at hp
                obtain ⟨⟨ds, r1⟩, hd, h3⟩ := Out.bind_done hp
                simp only [Out.done.injEq, Prod.mk.injEq] at h3
                obtain ⟨rfl, rfl⟩ := h3
                simp only [resolve, intoReader_of hru, hdef, hkw, hkr] at hok
                have hnew : GTgt.new re (.ref q') = .record rfs (flatSlots (List.replicate rfs.length none)) := by
                  simp [GTgt.new, hf', hkr, flatSlots]
                rw [hnew]
                cases hrf : resolveFields Datum.skippable dv we re ds wfs rfs (List.replicate rfs.length none) with
                | none => rw [hrf] at hok; simp at hok
                | some s =>
                  rw [hrf] at hok
                  simp only at hok
                  cases hfd : fillDefaults dv rfs s with
                  | none => rw [hfd] at hok; simp at hok
                  | some vs =>
                    obtain ⟨h4, h5, h6⟩ := gfields_agree hk ih hF.sizes (hF.tidyR q' rdf rfs · hf' hkr ·) wfs
                      (fun wf hwf i rf hfn hread => hr.2.next (.field hf hf' hkw hkr hwf hfn hread))
                      (hF.tidyW q wd wfs · hf hkw ·) rd _ s (List.replicate rfs.length none)
                      (by simp [SameTaken]) (by simp) ds r1 hd hrf
                    obtain ⟨hl, hs⟩ := resolveFields_slots _ hrf
                    have hn := hF.fields q' rdf rfs hf' hkr
                    have hs1 : ∀ i, (showFields we re ds wfs rfs (List.replicate rfs.length none))[i]? = some none →
                        ∀ w ∈ wfs, ∀ rf, fieldByName rfs w.name ≠ some (i, rf) :=
                      fun i hi => ((hs i).1 ((h5.none i).2 hi)).2
                    have hs2 : ∀ i f, rfs[i]? = some f → (∀ w ∈ wfs, ∀ rf, fieldByName rfs w.name ≠ some (i, rf)) →
                        s[i]? = some none := fun i f hi hu => (hs i).2 ⟨by
                          obtain ⟨hlt, _⟩ := List.getElem?_eq_some_iff.1 hi
                          simp [List.getElem?_replicate, hlt], hu⟩
                    have hda := gdefaults_run (lim := lim) (re := re) (rfs := rfs) r1
                      (slots := showFields we re ds wfs rfs (List.replicate rfs.length none))
                      (l := missingFields wfs rfs)
                      (fun x hx => ((mem_missing hn).1 hx).1)
                      (fun x hx => fillDefaults_isSome hfd x.1 x.2 ((mem_missing hn).1 hx).1
                        (hs2 _ _ ((mem_missing hn).1 hx).1 ((mem_missing hn).1 hx).2))
                    rw [setAll_missing _ hn h6 hs1 (fun i f hi hu => (h5.none i).1 (hs2 i f hi hu)), fillRaw_eq] at hda
                    simp only [recordSem, Sem.noFlag, Sem.seq, h4, hda]
                    refine ⟨_, rfl, fun _ => ?_, fun h => by simp [Datum.isNil] at h⟩
                    simp only [GTgt.datum, showDatum, readerOf_of hru, hkinw, hkinr, hkw, hkr]
              | enum _ _ => simp [Def.readableBy, hkw, hkr] at hread
              | fixed _ => simp [Def.readableBy, hkw, hkr] at hread
            | enum ws wdf =>
              cases hkr : rdf.kind with
              | enum rs rdflt =>
                have hnew : GTgt.new re (.ref q') = .enum rs [] := by
                  simp only [GTgt.new, hf', hkr]
                rw [hnew]
                rw [hkw] at hp
                simp only [enumSem, Sem.read] at hp ⊢
                cases hrl : readLong ro rd with
                | error e => rw [hrl] at hp; simp [lift] at hp
                | ok x =>
                  obtain ⟨v, r1⟩ := x
                  rw [hrl] at hp
                  simp only [lift, Out.done.injEq, Prod.mk.injEq] at hp
                  obtain ⟨rfl, rfl⟩ := hp
                  simp only [resolve, intoReader_of hru, hdef, hkw, hkr, enumAs] at hok
                  have ha : (if 0 ≤ v.toInt then ws[v.toInt.toNat]? else none) = atIndex ws v := rfl
                  rw [ha] at hok
                  have hle := hE q' rdf rs rdflt hf' hkr
                  cases hat : atIndex ws v with
                  | none => rw [hat] at hok; simp at hok
                  | some s =>
                    rw [hat] at hok
                    simp only [symbolAs] at hok
                    have hview : showDatum we re (.enum v.toInt) (.ref q) (.ref q') = some (.symbol (if s ∈ rs then s else rdflt)) := by
                      simp only [showDatum, readerOf_of hru, hkinw, hkinr, hkw, hkr, symbolView]
                      rw [ha, hat]
                    simp only [hat, Sem.pick, symbolSem]
                    cases hsi : symbolIndex rs s with
                    | some j =>
                      have hmem : s ∈ rs := by
                        by_cases hm : s ∈ rs
                        · exact hm
                        · rw [symbolIndex_eq_none.2 hm] at hsi; simp at hsi
                      refine ⟨.enum rs s, ?_, fun _ => ?_, fun h => by simp [Datum.isNil] at h⟩
                      · simp only [Sem.act, gOps, gsetInt_enum hle hsi]; rfl
                      · rw [hview, if_pos hmem]; rfl
                    | none =>
                      rw [hsi] at hok
                      simp only at hok
                      by_cases hdf : rdflt ≠ []
                      · rw [if_pos hdf] at hok
                        simp only [if_pos hdf]
                        cases hsd : symbolIndex rs rdflt with
                        | none => rw [hsd] at hok; simp at hok
                        | some j =>
                          refine ⟨.enum rs rdflt, ?_, fun _ => ?_, fun h => by simp [Datum.isNil] at h⟩
                          · simp only [Sem.act, gOps, gsetInt_enum hle hsd]; rfl
                          · rw [hview, if_neg (symbolIndex_eq_none.1 hsi)]; rfl
                      · rw [if_neg hdf] at hok; simp at hok
              | record _ => simp [Def.readableBy, hkw, hkr] at hread
              | fixed _ => simp [Def.readableBy, hkw, hkr] at hread
            | fixed size =>
              cases hkr : rdf.kind with
              | fixed size' =>
                have hnew : GTgt.new re (.ref q') = .prim .nil := by
                  simp only [GTgt.new, hf', hkr]
                rw [hnew]
                rw [hkw] at hp
                simp only [fixedSem, doRead_fixed (hF.sizes q wd size hf hkw)]
                simp only at hp
                cases hrd : readFixed ro size rd with
                | error e => rw [hrd] at hp; simp [lift] at hp
                | ok x =>
                  obtain ⟨bs, r1⟩ := x
                  rw [hrd] at hp
                  simp only [lift, Out.done.injEq, Prod.mk.injEq] at hp
                  obtain ⟨rfl, rfl⟩ := hp
                  simp only [mapOk, gOps, gSet, if_true]
                  exact ⟨_, rfl, fun _ => by simp [GTgt.datum, showDatum], fun h => by simp [Datum.isNil] at h⟩
              | record _ => simp [Def.readableBy, hkw, hkr] at hread
              | enum _ _ => simp [Def.readableBy, hkw, hkr] at hread
          · rw [resolve_ref_other hru fun q'' wd' rd' h1 h2 h3 => by
              cases h1; rw [hf'] at h3; rw [hf] at h2; simp at h2 h3; subst h2; subst h3; simpa using hread] at hok
            simp at hok
    · rw [resolve_ref_other hru fun q' _ _ h => absurd ⟨q', h⟩ hra] at hok
      simp at hok

theorem ginterp_body {w r : Ty} (hr : r.isUnion = false) (m : Nat) : interp ro gfo we re false (m + 1) w (some r) =
    bodySem ro gfo we re false m (interp ro gfo we re false m) w (some r) := by
  cases w <;> cases r <;> first | rfl | (exfalso; simp [Ty.isUnion] at hr; done)

theorem ginterp_into {w : Ty} (hw : w.isUnion = false) (rs : List Ty) (m : Nat) :
    interp ro gfo we re false (m + 1) w (some (.union rs)) =
      match findIdx (w.readableBy we re) 0 rs with
      | some (i, r') => .member gfo i (interp ro gfo we re false m w (some r'))
      | none => .fail .panic := by
  cases w <;> first | (exfalso; simp [Ty.isUnion] at hw; done) | (simp only [interp, Ty.isUnion]; rfl)

theorem gunion_agree {n k : Nat} (ih : MainG ro lim we re dv n) (hk : 2 * n ≤ k)
    {ts : List Ty} {r : Ty} (hw : Ty.tidyMembers ts = true)
    (hr : r.tidy = true ∧ NullsAgree we re (.union ts) r) (rd : R) :
    GFits re r (fun d => (resolve Datum.skippable dv we re d (.union ts) r).isSome) (fun d => showDatum we re d (.union ts) r)
      (parse ro lim we (n + 1) (.union ts) rd)
      (bodySem ro gfo we re false k (interp ro gfo we re false k) (.union ts) (some r) rd (.new re r)) := by
  intro d rd' hp hok
  simp only [parse] at hp
  simp only [bodySem, unionSem, Sem.read]
  cases hrl : readLong ro rd with
  | error e => rw [hrl] at hp; simp at hp
  | ok x =>
    obtain ⟨v, r1⟩ := x
    rw [hrl] at hp
    simp only at hp ⊢
    cases ha : atIndex ts v with
    | none => rw [ha] at hp; simp at hp
    | some t =>
      rw [ha] at hp
      have hts := atIndex_some ha
      have htm := tidyMembers_mem hw (List.mem_of_getElem? hts)
      simp only at hp
      obtain ⟨⟨d', r2⟩, hd, h3⟩ := Out.bind_done hp
      simp only [Out.done.injEq, Prod.mk.injEq] at h3
      obtain ⟨rfl, rfl⟩ := h3
      simp only [resolve, hts] at hok
      simp only [Sem.pick]
      obtain ⟨htu, htt⟩ := htm
      have htmem : t ∈ ts := List.mem_of_getElem? hts
      by_cases htnull : t = .null
      · subst htnull
        simp only [Ty.isNull, if_true] at hok
        cases n with
        | zero => simp [parse] at hd
        | succ n =>
          simp only [parse, Out.done.injEq, Prod.mk.injEq] at hd
          obtain ⟨rfl, rfl⟩ := hd
          have hnu : r.nullable = true := by
            cases r <;> first | exact absurd rfl (hr.2.union htmem) | (simp [readNull, Ty.nullable] at hok ⊢; done) | skip
            simp only [readNull] at hok
            split at hok
            · assumption
            · simp at hok
          obtain ⟨rs, rfl⟩ := nullable_union hnu
          refine ⟨_, ?_, fun h => by simp [Datum.isNil] at h, fun _ => ⟨rfl, hnu⟩⟩
          simp only [memberSem, Ty.isNull, if_true]
          cases hf : findIdx (fun r => r.goName re == Ty.goName we .null) 0 rs with
          | some x => rfl
          | none =>
            exfalso
            simp only [Ty.nullable, List.any_eq_true] at hnu
            obtain ⟨t, ht, hn⟩ := hnu
            have := findIdx_none hf t ht
            cases t <;> simp [Ty.isNull, Ty.goName] at this hn
      · have htn : t.isNull = false := by cases t <;> first | rfl | exact absurd rfl htnull
        simp only [htn] at hok
        have hnil : ∀ (r' : Ty), (resolve Datum.skippable dv we re d' t r').isSome = true → (Datum.union v.toNat d').isNil = false := by
          intro r' hre
          cases d' with
          | null => simp [resolve, htn] at hre
          | _ => rfl
        by_cases hru : ∃ rs, r = .union rs
        · obtain ⟨rs, rfl⟩ := hru
          have hmem : ∀ {p : Ty → Bool} {j r'}, findIdx p 0 rs = some (j, r') → NullsAgree we re t r' →
              (resolve Datum.skippable dv we re d' t r').isSome = true → (Datum.union v.toNat d').isNil = false ∧
              ∃ t', Sem.member gfo j (interp ro gfo we re false k t (some r')) r1 (.new re (.union rs)) = .done (false, r2, t') ∧
                t'.datum = showDatum we re d' t r' := by
            intro p j r' hf hnt hre
            obtain ⟨_, hj, _⟩ := findIdx_getElem hf
            have hr' := tidyMembers_mem (by simpa [Ty.tidy] using hr.1) (findIdx_mem hf)
            have hu' : r'.isUnion = false := hr'.1
            obtain ⟨_, t', h4, h5⟩ := gmember_agree (lim := lim) (re := re) (rs := rs) (o := none) (by simpa using hj) hu'
              (ih t r' k hk htt ⟨hr'.2, hnt⟩ r1) hd hre
            exact ⟨hnil r' hre, t', h4, h5⟩
          simp only [memberSem, pickBranch, htn] at hok ⊢
          have hsh : ∀ {j r'}, pickBranch we re t rs = some (j, r') → (Datum.union v.toNat d').isNil = false →
              showDatum we re (.union v.toNat d') (.union ts) (.union rs) = showDatum we re d' t r' := by
            intro j r' hpb hn
            simp only [showDatum, hn, hts, hpb]
            simp
          cases hf : findIdx (fun r => r.goName re == t.goName we) 0 rs with
          | some x =>
            obtain ⟨j, r'⟩ := x
            rw [hf] at hok
            obtain ⟨hn, t', h4, h5⟩ := hmem hf (hr.2.next (.named htmem htn hf)) (by simpa using hok)
            refine ⟨t', by rw [hn]; exact h4, fun _ => ?_, fun h => by rw [hn] at h; simp at h⟩
            rw [h5, hsh (j := j) (r' := r') (by simp only [pickBranch, hf]) hn]
          | none =>
            rw [hf] at hok
            simp only at hok ⊢
            cases hf2 : findIdx (t.readableBy we re) 0 rs with
            | some x =>
              obtain ⟨j, r'⟩ := x
              rw [hf2] at hok
              obtain ⟨hn, t', h4, h5⟩ := hmem hf2 (hr.2.next (.first htmem htn hf hf2)) (by simpa using hok)
              refine ⟨t', by rw [hn]; exact h4, fun _ => ?_, fun h => by rw [hn] at h; simp at h⟩
              rw [h5, hsh (j := j) (r' := r') (by simp only [pickBranch, hf, hf2]) hn]
            | none => rw [hf2] at hok; simp at hok
        · have e1 : memberSem gfo we re (interp ro gfo we re false k) t (some r) =
              if t.readableBy we re r then interp ro gfo we re false k t (some r) else .fail (.runtime (.noUnionField (t.goName we))) := by
            cases r <;> first | exact absurd ⟨_, rfl⟩ hru | (simp only [memberSem, htn]; rfl)
          rw [e1]
          have hok' : (if t.readableBy we re r then resolve Datum.skippable dv we re d' t r else none).isSome = true := by
            cases r <;> first | exact absurd ⟨_, rfl⟩ hru | exact hok
          by_cases hread : t.readableBy we re r = true
          · rw [if_pos hread] at hok' ⊢
            have hn := hnil r hok'
            obtain ⟨t', h4, h5, h6⟩ := ih t r k hk htt ⟨hr.1, hr.2.next (.single htmem htn (by
              cases r <;> first | rfl | exact absurd ⟨_, rfl⟩ hru) hread)⟩ r1 d' r2 hd hok'
            have hdn : d'.isNil = false := by
              cases hdn : d'.isNil with
              | false => rfl
              | true =>
                exact absurd (nullable_union (h6 hdn).2) hru
            refine ⟨t', by rw [hn]; rw [hdn] at h4; exact h4, fun _ => ?_, fun h => by rw [hn] at h; simp at h⟩
            rw [h5 hdn]
            cases r <;> first | exact absurd ⟨_, rfl⟩ hru | simp [showDatum, hn, hts]
          · rw [if_neg hread] at hok'; simp at hok'

theorem showDatum_into {d : Datum} {w : Ty} {rs : List Ty} {j : Nat} {r' : Ty} (hd : d.isNil = false) (hw : w.isUnion = false)
    (hf : findIdx (w.readableBy we re) 0 rs = some (j, r')) (hu : r'.isUnion = false) :
    showDatum we re d w (.union rs) = showDatum we re d w r' := by
  have e : readerOf we re w (.union rs) = readerOf we re w r' := by
    rw [readerOf_of hu]
    simp only [readerOf, hf]
  cases d <;> simp only [showDatum, e]
  rw [if_neg (by simp [hd]), if_neg (by simp [hd])]
  cases w <;> first | rfl | (simp [Ty.isUnion] at hw; done)

theorem gmain_agree (hF : GFair we re) (hE : EnumsOK re) : ∀ n, MainG ro lim we re dv n := by
  intro n
  induction n with
  | zero => intro w r m _ _ _ rd d rd' hp; simp [parse] at hp
  | succ n ih =>
    intro w r m hm hw hr rd
    obtain ⟨m, rfl⟩ : ∃ k, m = k + 1 := ⟨m - 1, by omega⟩
    by_cases hwu : w.isUnion = true
    · obtain ⟨ts, rfl⟩ : ∃ ts, w = .union ts := by
        cases w <;> first | exact ⟨_, rfl⟩ | simp [Ty.isUnion] at hwu
      exact gunion_agree ih (by omega) (by simpa [Ty.tidy] using hw) hr rd
    · have hwu' : w.isUnion = false := by simpa using hwu
      by_cases hru : r.isUnion = true
      · obtain ⟨rs, rfl⟩ : ∃ ts, r = .union ts := by
          cases r <;> first | exact ⟨_, rfl⟩ | simp [Ty.isUnion] at hru
        have hrm : Ty.tidyMembers rs = true := by simpa [Ty.tidy] using hr.1
        have hmu : ∀ r ∈ rs, r.isUnion = false := by
          intro r hr
          exact (tidyMembers_mem hrm hr).1
        have hwn : w ≠ .null := by
          rintro rfl
          cases hr.2.null
        rw [ginterp_into hwu']
        intro d rd' hp hok
        simp only [resolve_into hwu' hwn hmu] at hok
        cases hf : findIdx (w.readableBy we re) 0 rs with
        | none => rw [hf] at hok; simp at hok
        | some x =>
          obtain ⟨j, r'⟩ := x
          rw [hf] at hok
          simp only at hok ⊢
          obtain ⟨m, rfl⟩ : ∃ k, m = k + 1 := ⟨m - 1, by omega⟩
          have hu' := hmu r' (findIdx_mem hf)
          rw [ginterp_body hu']
          obtain ⟨_, hj, hpr⟩ := findIdx_getElem hf
          obtain ⟨hn, t', h4, h5⟩ := gmember_agree (lim := lim) (re := re) (rs := rs) (o := none) (by simpa using hj) hu'
            (gbody_agree hF hE ih (by omega : 2 * n ≤ m) hw ⟨(tidyMembers_mem hrm (findIdx_mem hf)).2,
              hr.2.next (.into hwu' hf)⟩ hwu' hu' rd) hp (by simpa using hok)
          refine ⟨t', by rw [hn]; exact h4, fun _ => ?_, fun h => by rw [hn] at h; simp at h⟩
          rw [h5, showDatum_into hn hwu' hf hu']
      · have hru' : r.isUnion = false := by simpa using hru
        rw [ginterp_body hru']
        exact gbody_agree hF hE ih (by omega) hw hr hwu' hru' rd
end
end Verif
