import Verif.Gen.Main
set_option linter.unusedSimpArgs false
set_option linter.unusedVariables false
/-
`interp` on the targets of generated code does what `parse` and `resolve` say: records,
unions, and the whole.
-/
namespace Verif
variable {R : Type}

theorem Out.bind_on {α β γ : Type} (p : Out (α × R)) (g : α → β) (f : β → γ) :
    (p.bind fun x => .done (g x.1, x.2) : Out (β × R)).on f = p.on fun a => f (g a) := by
  cases p <;> rfl

theorem Out.on_on {α β γ : Type} (p : Out (α × R)) (g : α → β) (f : β → γ) :
    (p.on g).on f = p.on fun a => f (g a) := by
  cases p <;> rfl

theorem ValFits.fail {α : Type} {r : Ty} {p : Out (α × R)} {f : α → Option Val} (h : ∀ d, f d = none) (e : Err) :
    ValFits r (p.on f) (.err e) := by
  cases p with
  | timeout => trivial
  | err e' => exact ⟨e, rfl⟩
  | done x => simp only [Out.on, h]; exact ⟨e, rfl⟩

theorem ValFits.of_list {α β : Type} {r : Ty} {st : List α → Option (List β)} {S : List β → Tgt} {p : Out (List α × R)}
    {i : Out (Bool × R × Tgt)} {g : List β → Val} (h : ListFits st S p i) (hg : ∀ bs, (S bs).final.val = some (g bs)) :
    ValFits r (p.on fun xs => (st xs).map g) i := by
  cases p with
  | timeout => trivial
  | err e' => exact h
  | done x =>
    obtain ⟨xs, rd'⟩ := x
    simp only [ListFits] at h
    simp only [Out.on]
    cases hs : st xs with
    | none => rw [hs] at h; exact h
    | some bs => rw [hs] at h; exact ⟨_, .inr ⟨h, hg bs⟩⟩

section
variable (ro : ReaderOps R) (lim : Nat) (dv : Field → Val) (we re : Env)

local notation "gops" => genOps re lim dv

/-- The agreement, for data up to a depth. -/
def MainOK (n : Nat) : Prop := ∀ (w r : Ty) (m : Nat), 2 * n ≤ m → w.tidy = true →
  r.tidy = true → NullsAgree we re w r → Comp we re w r → ∀ (rd : R) (v0 : Option Val),
  ValFits r ((parse ro lim we n w rd).on fun d => resolve Datum.skippable dv we re d w r)
    (interp ro gops we re false m w (some r) rd (.new re r v0))

variable {ro lim dv we re}

theorem fields_agree {n m : Nat} (hm : 2 * n ≤ m) (ih : MainOK ro lim dv we re n) (hz : SizesOK we)
    {rfs : List Field} (htr : ∀ f ∈ rfs, f.ty.tidy = true) :
    ∀ (wfs : List Field), (∀ wf ∈ wfs, ∀ i rf, fieldByName rfs wf.name = some (i, rf) →
      wf.ty.readableBy we re rf.ty = true → NullsAgree we re wf.ty rf.ty) →
    (∀ f ∈ wfs, f.ty.tidy = true) → ∀ (rd : R) (slots : List (Option Val)),
    ListFits (fun ds => resolveFields Datum.skippable dv we re ds wfs rfs slots) (fun s => .record rfs s)
      (parseFields (parse ro lim we n) wfs rd)
      (fieldsSem gops we re (interp ro gops we re false m) (some rfs) wfs rd (.record rfs slots)) := by
  intro wfs
  induction wfs with
  | nil => intro _ _ rd slots; simp [parseFields, fieldsSem, ListFits, resolveFields, Sem.skip]
  | cons w wfs ihf =>
    intro hna htw rd slots
    have ihf' := ihf (fun f hf => hna f (by simp [hf])) (fun f hf => htw f (by simp [hf]))
    have hwt := htw w (by simp)
    simp only [parseFields, fieldsSem, Option.bind]
    cases hf : fieldByName rfs w.name with
    | none =>
      simp only
      have hs := skip_agree ro lim we re dv hz n rfs slots w.ty m hm rd
      simp only [Sem.seq]
      cases hp : parse ro lim we n w.ty rd with
      | timeout => trivial
      | err e =>
        rw [hp] at hs
        obtain ⟨e', he⟩ := hs
        simp only [Out.bind, he]
        exact ⟨e', rfl⟩
      | done x =>
        obtain ⟨d, r1⟩ := x
        rw [hp] at hs
        simp only [SkipFits] at hs
        simp only [Out.bind]
        have h2 := ihf' r1 slots
        cases hd : d.skippable with
        | true =>
          rw [hs.1 hd]
          cases hq : parseFields (parse ro lim we n) wfs r1 with
          | timeout => trivial
          | err e =>
            rw [hq] at h2
            obtain ⟨e', he⟩ := h2
            simp only [he]
            exact ⟨e', rfl⟩
          | done y =>
            obtain ⟨ds, r2⟩ := y
            rw [hq] at h2
            simp only [ListFits] at h2 ⊢
            simp only [resolveFields, hf, hd, if_true]
            cases hr : resolveFields Datum.skippable dv we re ds wfs rfs slots with
            | none =>
              rw [hr] at h2
              obtain ⟨e', he⟩ := h2
              simp only [he]
              exact ⟨e', rfl⟩
            | some s =>
              rw [hr] at h2
              simp only [h2]
              rfl
        | false =>
          obtain ⟨e, he⟩ := hs.2 hd
          rw [he]
          cases hq : parseFields (parse ro lim we n) wfs r1 with
          | timeout => trivial
          | err e => exact ⟨_, rfl⟩
          | done y =>
            obtain ⟨ds, r2⟩ := y
            simp only [ListFits, resolveFields, hf, hd]
            exact ⟨_, rfl⟩
    | some x =>
      obtain ⟨i, rf⟩ := x
      simp only
      have hi := fieldByName_getElem hf
      by_cases hread : w.ty.readableBy we re rf.ty = true
      · rw [if_pos hread]
        have hrf := htr rf (fieldByName_mem hf)
        have h1 := field_agree (lim := lim) (dv := dv) (slots := slots) hi
          (ih w.ty rf.ty m hm hwt hrf (hna w (by simp) i rf hf hread) (.inl hread) rd (slotAt slots i))
        simp only [Sem.seq]
        cases hp : parse ro lim we n w.ty rd with
        | timeout => trivial
        | err e =>
          rw [hp] at h1
          obtain ⟨e', he⟩ := h1
          simp only [Out.bind, he]
          exact ⟨e', rfl⟩
        | done x =>
          obtain ⟨d, r1⟩ := x
          rw [hp] at h1
          simp only [Out.on] at h1
          simp only [Out.bind]
          cases hres : resolve Datum.skippable dv we re d w.ty rf.ty with
          | none =>
            rw [hres] at h1
            obtain ⟨e, he⟩ := h1
            rw [he]
            cases hq : parseFields (parse ro lim we n) wfs r1 with
            | timeout => trivial
            | err e => exact ⟨_, rfl⟩
            | done y =>
              obtain ⟨ds, r2⟩ := y
              simp only [ListFits, resolveFields, hf, hread, if_true, hres]
              exact ⟨_, rfl⟩
          | some v =>
            rw [hres] at h1
            simp only [Stored] at h1
            rw [h1]
            have h2 := ihf' r1 (slots.set i (some v))
            cases hq : parseFields (parse ro lim we n) wfs r1 with
            | timeout => trivial
            | err e =>
              rw [hq] at h2
              obtain ⟨e', he⟩ := h2
              simp only [he]
              exact ⟨e', rfl⟩
            | done y =>
              obtain ⟨ds, r2⟩ := y
              rw [hq] at h2
              simp only [ListFits] at h2 ⊢
              simp only [resolveFields, hf, hread, if_true, hres]
              cases hr : resolveFields Datum.skippable dv we re ds wfs rfs (slots.set i (some v)) with
              | none =>
                rw [hr] at h2
                obtain ⟨e', he⟩ := h2
                simp only [he]
                exact ⟨e', rfl⟩
              | some s =>
                rw [hr] at h2
                simp only [h2]
                rfl
      · rw [if_neg hread]
        simp only [Sem.fail]
        cases hp : parse ro lim we n w.ty rd with
        | timeout => trivial
        | err e => exact ⟨_, rfl⟩
        | done x =>
          obtain ⟨d, r1⟩ := x
          simp only [Out.bind]
          cases hq : parseFields (parse ro lim we n) wfs r1 with
          | timeout => trivial
          | err e => exact ⟨_, rfl⟩
          | done y =>
            obtain ⟨ds, r2⟩ := y
            simp only [ListFits, resolveFields, hf, hread]
            exact ⟨_, rfl⟩

/-! ### The resolution of a type that is no union -/

theorem intoReader_of {w : Ty} {f : Ty → Option Val} {r : Ty} (h : r.isUnion = false) : intoReader we re w f r = f r := by
  cases r <;> first | rfl | simp [Ty.isUnion] at h

theorem resolve_into {drop : Datum → Bool} {d : Datum} {w : Ty} {rs : List Ty} (hw : w.isUnion = false) (hn : w ≠ .null)
    (hrs : ∀ r ∈ rs, r.isUnion = false) :
    resolve drop dv we re d w (.union rs) = match findIdx (w.readableBy we re) 0 rs with
      | some (j, r') => (resolve drop dv we re d w r').map fun v => .union (BitVec.ofInt 64 j) (some v)
      | none => none := by
  have key : ∀ (w : Ty) (f : Ty → Option Val), intoReader we re w f (.union rs) = match findIdx (w.readableBy we re) 0 rs with
      | some (j, r') => (intoReader we re w f r').map fun v => .union (BitVec.ofInt 64 j) (some v)
      | none => none := by
    intro w f
    cases h : findIdx (w.readableBy we re) 0 rs with
    | none => simp only [intoReader, h]
    | some x =>
      obtain ⟨j, r'⟩ := x
      show _ = (intoReader we re w f r').map _
      rw [intoReader_of (hrs r' (findIdx_mem h))]
      simp only [intoReader, h]
  cases d <;> cases w <;>
    first
    | (exfalso; simp [Ty.isUnion] at hw; done)
    | (exfalso; exact hn rfl)
    | exact key _ _
    | (generalize findIdx _ _ _ = x; cases x <;> simp [resolve, Ty.isNull])
    | (simp only [resolve]; exact key _ _)

theorem resolve_array_other {drop : Datum → Bool} {d : Datum} {wi r : Ty} (h : r.isUnion = false) (h' : ∀ ri, r ≠ .array ri) :
    resolve drop dv we re d (.array wi) r = none := by
  cases d <;> simp only [resolve, Ty.isNull]
  · rfl
  · rw [intoReader_of h]
    cases r <;> first | rfl | exact absurd rfl (h' _)

theorem resolve_map_other {drop : Datum → Bool} {d : Datum} {wi r : Ty} (h : r.isUnion = false) (h' : ∀ ri, r ≠ .map ri) :
    resolve drop dv we re d (.map wi) r = none := by
  cases d <;> simp only [resolve, Ty.isNull]
  · rfl
  · rw [intoReader_of h]
    cases r <;> first | rfl | exact absurd rfl (h' _)

theorem defAs_none {q : QName} {r : Ty} {k : DefKind → DefKind → Option Val}
    (h' : ∀ q' wd rd, r = .ref q' → we.find q = some wd → re.find q' = some rd → wd.readableBy rd = false) :
    defAs we re q k r = none := by
  cases r <;> try rfl
  rename_i q'
  simp only [defAs]
  cases h1 : we.find q <;> cases h2 : re.find q' <;> try rfl
  rename_i wd rd
  simp [h' q' wd rd rfl h1 h2]

theorem resolve_ref_other {drop : Datum → Bool} {d : Datum} {q : QName} {r : Ty} (h : r.isUnion = false)
    (h' : ∀ q' wd rd, r = .ref q' → we.find q = some wd → re.find q' = some rd → wd.readableBy rd = false) :
    resolve drop dv we re d (.ref q) r = none := by
  cases d <;> simp only [resolve, Ty.isNull]
  · rfl
  all_goals rw [intoReader_of h]; exact defAs_none h'

/-! ### Bodies -/

theorem goName_array {ri wi : Ty} (h : Ty.goName we (.array wi) = Ty.goName re (.array ri)) : wi.goName we = ri.goName re := by
  simp only [Ty.goName] at h
  exact List.append_cancel_left h

theorem goName_map {ri wi : Ty} (h : Ty.goName we (.map wi) = Ty.goName re (.map ri)) : wi.goName we = ri.goName re := by
  simp only [Ty.goName] at h
  exact List.append_cancel_left h

theorem readFixed_length {ro : ReaderOps R} (h : FullReads ro) {k : Int} {rd rd' : R} {bs : List Byte}
    (hr : readFixed ro k rd = .ok (bs, rd')) : bs.length = k.toNat := by
  unfold readFixed at hr
  split at hr
  · simp at hr
  · exact h _ _ _ _ hr

theorem body_agree (hF : Fair we re) (hR : FullReads ro) {n k : Nat} (ih : MainOK ro lim dv we re n) (hk : 2 * n ≤ k)
    {w r : Ty} (hw : w.tidy = true) (hr : r.tidy = true) (hna : NullsAgree we re w r) (hwu : w.isUnion = false) (hru : r.isUnion = false)
    (hc : Comp we re w r) (rd : R) (v0 : Option Val) :
    ValFits r ((parse ro lim we (n + 1) w rd).on fun d => resolve Datum.skippable dv we re d w r)
      (bodySem ro gops we re false k (interp ro gops we re false k) w (some r) rd (.new re r v0)) := by
  cases w with
  | null =>
    cases hna.null
    exact ⟨_, .inr ⟨rfl, rfl⟩⟩
  | bool => exact prim_agree fun a => by simp only [resolve, intoReader_of hru]; exact bool_agree hru v0 a
  | int => exact prim_agree fun a => by simp only [resolve, intoReader_of hru]; exact int_agree hF.plain hru hc v0 a
  | long => exact prim_agree fun a => by simp only [resolve, intoReader_of hru]; exact long_agree hru v0 a
  | float => exact prim_agree fun a => by simp only [resolve, intoReader_of hru]; exact float_agree hru v0 a
  | double => exact prim_agree fun a => by simp only [resolve, intoReader_of hru]; exact double_agree hru v0 a
  | bytes => exact prim_agree fun a => by simp only [resolve, intoReader_of hru]; exact bytes_agree hF.plain hru hc v0 a
  | string => exact prim_agree fun a => by simp only [resolve, intoReader_of hru]; exact string_agree hru v0 a
  | union ts => simp [Ty.isUnion] at hwu
  | array wi =>
    by_cases hra : ∃ ri, r = .array ri
    · obtain ⟨ri, rfl⟩ := hra
      have hwi : wi.tidy = true := by simpa [Ty.tidy] using hw
      have hri : ri.tidy = true := by simpa [Ty.tidy] using hr
      have hci : Comp we re wi ri := by
        rcases hc with h | h | ⟨_, _, _, h, _⟩ | h | h
        · left; simpa [Ty.readableBy, anyBranch] using h
        · exact .inr (.inl (goName_array h))
        · cases h
        · simp [Ty.isUnion] at h
        · simp [Ty.isUnion] at h
      have hb := blocks_agree (ro := ro) (fo := gops) (lim := lim) (p := parse ro lim we n wi)
        (a := itemSem gops (interp ro gops we re false k wi (some ri)))
        (step := fun d => resolve Datum.skippable dv we re d wi ri) (S := fun bs => .array ri (bs.map some)) (I := .array ri [])
        (fun bs rd => item_agree (ih wi ri k hk hwi hri (hna.next .item) hci rd none))
        (by intro c; simp [genOps, genHintSize])
        (by intro bs c hne; simp [genOps, genHintSize, hne])
        n k rd [] (by omega)
      simp only [List.nil_append, List.isEmpty_nil] at hb
      simp only [parse, Out.bind_on, resolve, intoReader_of hru, resolveItems_eq, bodySem]
      refine ValFits.of_list hb fun bs => ?_
      cases bs with
      | nil => rfl
      | cons b bs => simp only [stateOf, Tgt.final, Tgt.val, allSome_map_some, Option.map]
    · have : bodySem ro gops we re false k (interp ro gops we re false k) (.array wi) (some r) = .fail .panic := by
        cases r <;> first | rfl | exact absurd ⟨_, rfl⟩ hra
      rw [this]
      exact ValFits.fail (fun d => resolve_array_other hru fun ri h => hra ⟨ri, h⟩) _
  | map wi =>
    by_cases hra : ∃ ri, r = .map ri
    · obtain ⟨ri, rfl⟩ := hra
      have hwi : wi.tidy = true := by simpa [Ty.tidy] using hw
      have hri : ri.tidy = true := by simpa [Ty.tidy] using hr
      have hci : Comp we re wi ri := by
        rcases hc with h | h | ⟨_, _, _, h, _⟩ | h | h
        · left; simpa [Ty.readableBy, anyBranch] using h
        · exact .inr (.inl (goName_map h))
        · cases h
        · simp [Ty.isUnion] at h
        · simp [Ty.isUnion] at h
      have hb := blocks_agree (ro := ro) (fo := gops) (lim := lim) (p := parseEntry ro (parse ro lim we n wi))
        (a := entrySem ro gops (interp ro gops we re false k wi (some ri)))
        (step := fun e => (resolve Datum.skippable dv we re e.2 wi ri).map fun v => (e.1, v))
        (S := fun bs => .map ri true (bs.map fun e => (e.1, some e.2)) (some [])) (I := .map ri false [] (some []))
        (fun bs rd => entry_agree fun rd => ih wi ri k hk hwi hri (hna.next .value) hci rd none)
        (by intro c; simp [genOps, genHintSize])
        (by intro bs c hne; simp [genOps, genHintSize])
        n k rd [] (by omega)
      simp only [List.nil_append, List.isEmpty_nil] at hb
      simp only [parse, Out.bind_on, resolve, intoReader_of hru, resolveEntries_eq, bodySem]
      refine ValFits.of_list hb fun bs => ?_
      cases bs with
      | nil => rfl
      | cons b bs => simp only [stateOf, Tgt.final, Tgt.val, allEntries_map, Option.map, mapOf]
    · have : bodySem ro gops we re false k (interp ro gops we re false k) (.map wi) (some r) = .fail .panic := by
        cases r <;> first | rfl | exact absurd ⟨_, rfl⟩ hra
      rw [this]
      exact ValFits.fail (fun d => resolve_map_other hru fun ri h => hra ⟨ri, h⟩) _
  | ref q =>
    by_cases hra : ∃ q', r = .ref q'
    · obtain ⟨q', rfl⟩ := hra
      simp only [bodySem, refSem]
      cases hf : we.find q with
      | none => simp only [parse, hf]; exact ⟨_, rfl⟩
      | some wd =>
        simp only
        cases hf' : re.find q' with
        | none =>
          exact ValFits.fail (fun d => resolve_ref_other hru fun q'' wd rd h1 h2 h3 => by
            cases h1; rw [hf'] at h3; simp at h3) _
        | some rdf =>
          simp only [Bool.false_or]
          by_cases hread : wd.readableBy rdf = true
          · rw [if_pos hread]
            simp only [parse, hf, parseDef, defSem, Option.map]
            have hdef : ∀ K, defAs we re q K (.ref q') = K wd.kind rdf.kind := by
              intro K; simp only [defAs, hf, hf', hread, if_true]
            cases hkw : wd.kind with
            | record wfs =>
              cases hkr : rdf.kind with
              | record rfs =>
                simp only [Out.bind_on, resolve, intoReader_of hru, hdef, hkw, hkr]
                have hfa := fields_agree hk ih hF.sizes (hF.tidyR q' rdf rfs · hf' hkr ·) wfs
                  (fun wf hwf i rf hfn hr => hna.next (.field hf hf' hkw hkr hwf hfn hr))
                  (hF.tidyW q wd wfs · hf hkw ·) rd (List.replicate rfs.length none)
                have hnew : Tgt.new re (.ref q') v0 = .record rfs (List.replicate rfs.length none) := by
                  simp only [Tgt.new, hf', hkr]
                rw [hnew]
                simp only [recordSem, Sem.noFlag, Sem.seq]
                cases hp : parseFields (parse ro lim we n) wfs rd with
                | timeout => trivial
                | err e =>
                  rw [hp] at hfa
                  obtain ⟨e', he⟩ := hfa
                  simp only [he]
                  exact ⟨e', rfl⟩
                | done x =>
                  obtain ⟨ds, r1⟩ := x
                  rw [hp] at hfa
                  simp only [ListFits] at hfa
                  simp only [Out.on]
                  cases hrf : resolveFields Datum.skippable dv we re ds wfs rfs (List.replicate rfs.length none) with
                  | none =>
                    rw [hrf] at hfa
                    obtain ⟨e', he⟩ := hfa
                    simp only [he]
                    exact ⟨e', rfl⟩
                  | some s =>
                    rw [hrf] at hfa
                    simp only at hfa
                    simp only [hfa]
                    obtain ⟨hl, hs⟩ := resolveFields_slots _ hrf
                    have hda := defaults_agree re lim dv (wfs := wfs) (rfs := rfs) r1 (slots := s)
                      (hF.fields q' rdf rfs hf' hkr) (by simpa using hl)
                      (fun i hi => ((hs i).1 hi).2)
                      (fun i f hi hu => (hs i).2 ⟨by
                        obtain ⟨hlt, _⟩ := List.getElem?_eq_some_iff.1 hi
                        simp [List.getElem?_replicate, hlt], hu⟩)
                    cases hfd : fillDefaults dv rfs s with
                    | none =>
                      rw [hfd] at hda
                      obtain ⟨e', he⟩ := hda
                      simp only [he]
                      exact ⟨e', rfl⟩
                    | some vs =>
                      rw [hfd] at hda
                      simp only at hda
                      simp only [hda]
                      refine ⟨_, .inr ⟨rfl, ?_⟩⟩
                      simp only [Tgt.final, Tgt.val, allSome_map_some, Option.map]
              | enum _ _ => simp [Def.readableBy, hkw, hkr] at hread
              | fixed _ => simp [Def.readableBy, hkw, hkr] at hread
            | enum ws wdf =>
              cases hkr : rdf.kind with
              | enum rs rdflt =>
                have hnew : Tgt.new re (.ref q') v0 = .leaf .enum v0 := by
                  simp only [Tgt.new, hf', hkr]
                rw [hnew]
                simp only [enumSem, Sem.read]
                cases readLong ro rd with
                | error e => exact ⟨e, rfl⟩
                | ok x =>
                  obtain ⟨v, r1⟩ := x
                  simp only [lift, Out.on, resolve, intoReader_of hru, hdef, hkw, hkr, enumAs]
                  have ha : (if 0 ≤ v.toInt then ws[v.toInt.toNat]? else none) = atIndex ws v := rfl
                  rw [ha]
                  cases atIndex ws v with
                  | none => exact ⟨_, rfl⟩
                  | some s =>
                    simp only [Sem.pick, symbolSem, symbolAs]
                    cases symbolIndex rs s with
                    | some j => exact ⟨_, .inr ⟨rfl, rfl⟩⟩
                    | none =>
                      simp only
                      split
                      · cases symbolIndex rs rdflt with
                        | none => exact ⟨_, rfl⟩
                        | some j => exact ⟨_, .inr ⟨rfl, rfl⟩⟩
                      · exact ⟨_, rfl⟩
              | record _ => simp [Def.readableBy, hkw, hkr] at hread
              | fixed _ => simp [Def.readableBy, hkw, hkr] at hread
            | fixed size =>
              cases hkr : rdf.kind with
              | fixed size' =>
                have hnew : Tgt.new re (.ref q') v0 = .leaf (.fixed size'.toNat) v0 := by
                  simp only [Tgt.new, hf', hkr]
                rw [hnew]
                have hsz : size' = size := by
                  simp only [Def.readableBy, hkw, hkr, Bool.and_eq_true, beq_iff_eq] at hread
                  exact hread.1
                subst hsz
                simp only [fixedSem, doRead_fixed (hF.sizes q wd size' hf hkw)]
                cases hrd : readFixed ro size' rd with
                | error e => exact ⟨e, rfl⟩
                | ok x =>
                  obtain ⟨bs, r1⟩ := x
                  have hlen := readFixed_length hR hrd
                  simp only [lift, Out.on, resolve, intoReader_of hru, hdef, hkw, hkr, fixedAs, mapOk, genOps, genSetBytes, if_true]
                  refine ⟨_, .inr ⟨rfl, ?_⟩⟩
                  simp only [Tgt.final, Tgt.val, ← hlen, List.take_length]
                  rw [List.drop_eq_nil_of_le (by simp; omega), List.append_nil]
              | record _ => simp [Def.readableBy, hkw, hkr] at hread
              | enum _ _ => simp [Def.readableBy, hkw, hkr] at hread
          · rw [if_neg hread]
            exact ValFits.fail (fun d => resolve_ref_other hru fun q'' wd' rd' h1 h2 h3 => by
              cases h1; rw [hf'] at h3; rw [hf] at h2; simp at h2 h3; subst h2; subst h3; simpa using hread) _
    · have : bodySem ro gops we re false k (interp ro gops we re false k) (.ref q) (some r) = .fail .panic := by
        cases r <;> first | rfl | exact absurd ⟨_, rfl⟩ hra
      rw [this]
      exact ValFits.fail (fun d => resolve_ref_other hru fun q' _ _ h => absurd ⟨q', h⟩ hra) _

theorem interp_body {w r : Ty} (hr : r.isUnion = false) (m : Nat) : interp ro gops we re false (m + 1) w (some r) =
    bodySem ro gops we re false m (interp ro gops we re false m) w (some r) := by
  cases w <;> cases r <;> first | rfl | (exfalso; simp [Ty.isUnion] at hr; done)

theorem interp_into {w : Ty} (hw : w.isUnion = false) (rs : List Ty) (m : Nat) :
    interp ro gops we re false (m + 1) w (some (.union rs)) =
      match findIdx (w.readableBy we re) 0 rs with
      | some (i, r') => .member gops i (interp ro gops we re false m w (some r'))
      | none => .fail .panic := by
  cases w <;> first | (exfalso; simp [Ty.isUnion] at hw; done) | (simp only [interp, Ty.isUnion]; rfl)

theorem nullable_of_goName (hp : PlainNames re) {rs : List Ty} {r' : Ty} (ht : Ty.tidyMembers rs = true) (hm : r' ∈ rs)
    (hg : r'.goName re = Ty.goName we .null) : Ty.nullable (.union rs) = true := by
  obtain ⟨h1, h2⟩ := tidyMembers_mem ht hm
  cases r' with
  | null =>
    simp only [Ty.nullable, List.any_eq_true]
    exact ⟨_, hm, rfl⟩
  | ref q =>
    exfalso
    simp only [Ty.goName] at hg
    cases hf : re.find q with
    | none => rw [hf] at hg; simp at hg
    | some d =>
      rw [hf] at hg
      apply hp q d hf
      simp only at hg
      rw [hg]; simp [builtinNames]
  | union ts => simp [Ty.isUnion] at h1
  | array t => simp [Ty.goName] at hg
  | map t => simp [Ty.goName] at hg
  | _ => simp [Ty.goName] at hg

theorem union_agree (hF : Fair we re) {n k : Nat} (ih : MainOK ro lim dv we re n) (hk : 2 * n ≤ k)
    {ts : List Ty} {r : Ty} (hw : Ty.tidyMembers ts = true) (hr : r.tidy = true)
    (hna : NullsAgree we re (.union ts) r) (rd : R) (v0 : Option Val) :
    ValFits r ((parse ro lim we (n + 1) (.union ts) rd).on fun d => resolve Datum.skippable dv we re d (.union ts) r)
      (bodySem ro gops we re false k (interp ro gops we re false k) (.union ts) (some r) rd (.new re r v0)) := by
  simp only [parse, bodySem, unionSem, Sem.read]
  cases readLong ro rd with
  | error e => exact ⟨e, rfl⟩
  | ok x =>
    obtain ⟨v, r1⟩ := x
    simp only
    cases ha : atIndex ts v with
    | none => exact ⟨_, rfl⟩
    | some t =>
      have hts := atIndex_some ha
      have htm := tidyMembers_mem hw (List.mem_of_getElem? hts)
      simp only [Out.bind_on, Sem.pick, resolve, hts]
      obtain ⟨htu, htt⟩ := htm
      have htmem : t ∈ ts := List.mem_of_getElem? hts
      by_cases htnull : t = .null
      · subst htnull
        simp only [Ty.isNull, if_true]
        cases n with
        | zero => trivial
        | succ n =>
          simp only [parse, Out.on, memberSem]
          cases r with
          | union rs =>
            simp only [Ty.isNull, if_true, readNull]
            cases hf : findIdx (fun r => r.goName re == Ty.goName we .null) 0 rs with
            | some x =>
              simp only [Sem.nullExit]
              split
              · rename_i hn; exact ⟨_, .inl ⟨rfl, rfl, hn⟩⟩
              · rename_i hn
                exfalso
                obtain ⟨j, r'⟩ := x
                have hm := findIdx_mem hf
                have hg : r'.goName re = Ty.goName we .null := by simpa using (findIdx_getElem hf).2.2
                exact hn (nullable_of_goName hF.plain (by simpa [Ty.tidy] using hr) hm hg)
            | none =>
              have hno : Ty.nullable (.union rs) = false := by
                simp only [Ty.nullable]
                rw [List.any_eq_false]
                intro t ht
                have := findIdx_none hf t ht
                cases t <;> simp [Ty.isNull, Ty.goName] at this ⊢
              simp only [hno]
              cases hf2 : findIdx (Ty.null.readableBy we re) 0 rs with
              | some x =>
                exfalso
                obtain ⟨j, r'⟩ := x
                have hm := findIdx_mem hf2
                have hg : Ty.readableBy we re .null r' = true := (findIdx_getElem hf2).2.2
                obtain ⟨h1, h2⟩ := tidyMembers_mem (by simpa [Ty.tidy] using hr) hm
                cases r' <;> first
                  | (have := findIdx_none hf _ hm
                     simp [Ty.goName] at this; done)
                  | (simp [Ty.isUnion] at h1; done)
                  | (simp [Ty.readableBy, anyBranch, Ty.readsNull] at hg; done)
              | none => exact ⟨_, rfl⟩
          | null => exact absurd rfl (hna.union htmem)
          | _ => 
            simp only [Ty.readableBy, anyBranch, Ty.readsNull, readNull, Ty.nullable]
            exact ⟨_, rfl⟩
      · have htn : t.isNull = false := by cases t <;> first | rfl | exact absurd rfl htnull
        simp only [htn]
        by_cases hru : ∃ rs, r = .union rs
        · obtain ⟨rs, rfl⟩ := hru
          have hmem : ∀ {p : Ty → Bool} {j r'}, findIdx p 0 rs = some (j, r') → NullsAgree we re t r' → Comp we re t r' →
              ValFits (.union rs) ((parse ro lim we n t r1).on fun d =>
                  (resolve Datum.skippable dv we re d t r').map fun v => .union (BitVec.ofInt 64 j) (some v))
                (Sem.member gops j (interp ro gops we re false k t (some r')) r1 (.new re (.union rs) v0)) := by
            intro p j r' hf hnt hc
            obtain ⟨_, hj, _⟩ := findIdx_getElem hf
            have hr' := tidyMembers_mem (by simpa [Ty.tidy] using hr) (findIdx_mem hf)
            have hu' : r'.isUnion = false := hr'.1
            have := member_agree (lim := lim) (dv := dv) (rs := rs) (tag := 0) (sel := none)
              (slots := List.replicate rs.length none) (by simpa using hj) hu' (by simp)
              (ih t r' k hk htt hr'.2 hnt hc r1 _)
            rw [Out.on_on] at this
            exact this
          simp only [memberSem, pickBranch, htn]
          cases hf : findIdx (fun r => r.goName re == t.goName we) 0 rs with
          | some x =>
            obtain ⟨j, r'⟩ := x
            have := (findIdx_getElem hf).2.2
            exact hmem hf (hna.next (.named htmem htn hf)) (.inr (.inl (by simpa using Eq.symm (by simpa using this))))
          | none =>
            simp only
            cases hf2 : findIdx (t.readableBy we re) 0 rs with
            | some x =>
              obtain ⟨j, r'⟩ := x
              exact hmem hf2 (hna.next (.first htmem htn hf hf2)) (.inl (findIdx_getElem hf2).2.2)
            | none => exact ValFits.fail (fun d => rfl) _
        · have e1 : memberSem gops we re (interp ro gops we re false k) t (some r) =
              if t.readableBy we re r then interp ro gops we re false k t (some r) else .fail (.runtime (.noUnionField (t.goName we))) := by
            cases r <;> first | exact absurd ⟨_, rfl⟩ hru | (simp only [memberSem, htn]; rfl)
          rw [e1]
          have e3 : (fun d => if false = true then readNull r else match r with
              | .union rs => match pickBranch we re t rs with
                | none => none
                | some (j, r') => (resolve Datum.skippable dv we re d t r').map fun v => Val.union (BitVec.ofInt 64 j) (some v)
              | r => if t.readableBy we re r then resolve Datum.skippable dv we re d t r else none) =
              fun d => if t.readableBy we re r then resolve Datum.skippable dv we re d t r else none := by
            funext d
            rw [if_neg (by simp)]
            cases r <;> first | exact absurd ⟨_, rfl⟩ hru | rfl
          refine Eq.mpr (congrArg (fun f => ValFits r ((parse ro lim we n t r1).on f) _) e3) ?_
          by_cases hread : t.readableBy we re r = true
          · simp only [hread, if_true]
            exact ih t r k hk htt hr (hna.next (.single htmem htn (by
              cases r <;> first | rfl | exact absurd ⟨_, rfl⟩ hru) hread)) (.inl hread) r1 v0
          · simp only [hread]
            exact ValFits.fail (fun d => rfl) _

theorem main_agree (hF : Fair we re) (hR : FullReads ro) : ∀ n, MainOK ro lim dv we re n := by
  intro n
  induction n with
  | zero => intro w r m _ _ _ _ _ rd v0; simp [parse, Out.on, ValFits]
  | succ n ih =>
    intro w r m hm hw hr hna hc rd v0
    obtain ⟨m, rfl⟩ : ∃ k, m = k + 1 := ⟨m - 1, by omega⟩
    by_cases hwu : w.isUnion = true
    · obtain ⟨ts, rfl⟩ : ∃ ts, w = .union ts := by
        cases w <;> first | exact ⟨_, rfl⟩ | simp [Ty.isUnion] at hwu
      exact union_agree hF ih (by omega) (by simpa [Ty.tidy] using hw) hr hna rd v0
    · have hwu' : w.isUnion = false := by simpa using hwu
      by_cases hru : r.isUnion = true
      · obtain ⟨rs, rfl⟩ : ∃ ts, r = .union ts := by
          cases r <;> first | exact ⟨_, rfl⟩ | simp [Ty.isUnion] at hru
        have hrm : Ty.tidyMembers rs = true := by simpa [Ty.tidy] using hr
        have hmu : ∀ r ∈ rs, r.isUnion = false := by
          intro r hr
          exact (tidyMembers_mem hrm hr).1
        have hwn : w ≠ .null := by
          rintro rfl
          cases hna.null
        rw [interp_into hwu']
        simp only [resolve_into hwu' hwn hmu]
        cases hf : findIdx (w.readableBy we re) 0 rs with
        | none => exact ValFits.fail (fun d => rfl) _
        | some x =>
          obtain ⟨j, r'⟩ := x
          simp only
          obtain ⟨m, rfl⟩ : ∃ k, m = k + 1 := ⟨m - 1, by omega⟩
          have hu' := hmu r' (findIdx_mem hf)
          rw [interp_body hu']
          obtain ⟨_, hj, hp⟩ := findIdx_getElem hf
          have := member_agree (lim := lim) (dv := dv) (rs := rs) (tag := 0) (sel := none)
            (slots := List.replicate rs.length none) (by simpa using hj) hu' (by simp)
            (body_agree hF hR ih (by omega : 2 * n ≤ m) hw (tidyMembers_mem hrm (findIdx_mem hf)).2
              (hna.next (.into hwu' hf)) hwu' hu' (.inl hp) rd _)
          rw [Out.on_on] at this
          exact this
      · have hru' : r.isUnion = false := by simpa using hru
        rw [interp_body hru']
        exact body_agree hF hR ih (by omega) hw hr hna hwu' hru' hc rd v0
end
end Verif
