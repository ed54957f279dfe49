import Verif.Gen.JsonCodeMarshal
import Verif.Gen.JsonMono
import Verif.Gen.DefaultCodeBack
/-
The programs of `UnmarshalJSON` do what `unmarshal` (Gen/Json) says.
-/
namespace Verif
open Spec Spec.Go Spec.GoJ

variable {P : Spec.GoD.Package} {bodies : QName → Sts}

/-- `json.Unmarshal`, Gen/Json. -/
def theUnmarshal (P : Spec.GoD.Package) (dn : Nat) : Unmarshal := fun j t cur => unmarshal P.nm P.n.env dn j t.erase cur

/-! ### Keys -/

theorem entry_member (l : List (Str × JTree)) (k : Str) : entry l (utf8 k) = lastMember l k := by
  induction l with
  | nil => rfl
  | cons x l ih =>
    simp only [entry, lastMember, ih]
    cases lastMember l k with
    | some j => rfl
    | none =>
      by_cases h : x.1 = k
      · rw [h]; simp
      · have : ¬ utf8 x.1 = utf8 k := fun e => h (utf8_inj e)
        simp only [if_neg h, if_neg this]

theorem keyed_member (dn : Nat) (l : List (Str × JTree)) (k : Str) :
    lastMember (keyed P.nm P.n.env dn l) k = (entry l (utf8 k)).map (unmarshal P.nm P.n.env dn) := by
  rw [keyed_eq, lastMember_map, entry_member]

theorem firstEntry_of (dn : Nat) (l : List (Str × JTree)) : ∀ ks : List Str,
    firstOf (lastMember (keyed P.nm P.n.env dn l)) ks = (firstEntry l (ks.map utf8)).map (unmarshal P.nm P.n.env dn)
  | [] => rfl
  | k :: ks => by
    simp only [firstOf, List.map_cons, firstEntry, keyed_member]
    cases entry l (utf8 k) with
    | none => exact firstEntry_of dn l ks
    | some j => rfl

theorem zero_json (t : PTy) : jsonZero P.n.env t.erase = GoD.zero P t := by
  cases t with
  | prim p d => cases p <;> rfl
  | ref q =>
    simp only [PTy.erase, jsonZero, GoD.zero]
    cases hq : P.n.find q with
    | none => rw [env_find, hq]; rfl
    | some d =>
      rw [find_erase hq]
      dsimp only
      cases hk : d.kind with
      | record fs doc => rw [kind_record hk]
      | enum s e v => rw [kind_enum hk]
      | fixed k => rw [kind_fixed hk]
  | _ => rfl

/-! ### Records -/

/-- The statements of a field that the text does not have, on the field alone. -/
def otherField (P : Spec.GoD.Package) (new : PTy → Made Val) (k : Nat) (f : PField) (cur : Val) : JRes Val := match f.dflt with
  | none => .error .refused
  | some j => match defaultSts P.nm P.n k j f.ty with
    | .error _ => .error .untyped
    | .ok L => ofMade (GoD.run P new (ctorSts P.nm P.n f.ty ++ L) f.ty true (some cur) >>= present)

/-- The loop over the fields, on the fields alone. -/
def readEach (P : Spec.GoD.Package) (U : Unmarshal) (new : PTy → Made Val) (k : Nat) (l : List (Str × JTree)) : List PField → List Val → JRes (List Val)
  | [], _ => .ok []
  | f :: fs, cs =>
    (match firstEntry l ((f.name :: f.aliases).map utf8) with
      | some j => U j f.ty (cs.headD (GoD.zero P f.ty))
      | none => otherField P new k f (cs.headD (GoD.zero P f.ty))).bind fun v => (readEach P U new k l fs cs.tail).map (v :: ·)

theorem urun_reads {U : Unmarshal} {new : PTy → Made Val} {E : EnumFuncs} {q : QName} {d : PDef} {fs : List PField} {doc : Str} (hq : P.n.find q = some d)
    (hk : d.kind = .record fs doc) (hn : (fs.map fun f => fieldGoName P.nm f.name).Nodup) {k : Nat} {data : JTree} : ∀ (rest pre : List PField) (body : List USt)
    (done cs : List Val) (st : UState),
    fs = pre ++ rest → fieldReads P.nm P.n k rest = .ok body → done.length = pre.length → cs.length = rest.length → st.r = .record (done ++ cs) →
    urun P U new E (.ref q) data st (body ++ [.retNil]) = (readEach P U new k st.fields rest cs).map fun vs => .record (done ++ vs)
  | [], pre, body, done, cs, st, hf, hb, hd, hl, hr => by
    cases hb
    have : cs = [] := List.eq_nil_of_length_eq_zero (by simpa using hl)
    subst this
    show (.ok st.r : JRes Val) = _
    rw [hr]; rfl
  | f :: rest, pre, body, done, cs, st, hf, hb, hd, hl, hr => by
    cases cs with
    | nil => simp at hl
    | cons c cs =>
      obtain ⟨e, he, hb⟩ := bind_ok hb
      obtain ⟨b, hb', hb⟩ := bind_ok hb
      cases hb
      have hfi : fs[done.length]? = some f := by rw [hf, hd]; simp
      have hp := part_field hq hk hn hfi (vs := done ++ c :: cs) (v := c) (by simp)
      have ih := fun v st (hst : st.r = .record (done ++ v :: cs)) => urun_reads (U := U) (new := new) (E := E) (data := data) hq hk hn rest (pre ++ [f]) b (done ++ [v]) cs st
        (by rw [hf]; simp) hb' (by simp [hd]) (by simpa using hl) (by rw [hst]; simp)
      have hset : ∀ v, (done ++ c :: cs).set done.length v = done ++ v :: cs := by intro v; simp
      have fin : ∀ v, (readEach P U new k st.fields rest cs).map (fun vs => Val.record (done ++ [v] ++ vs)) =
          ((readEach P U new k st.fields rest cs).map (v :: ·)).map (fun vs => Val.record (done ++ vs)) := by
        intro v
        cases readEach P U new k st.fields rest cs with
        | error e => rfl
        | ok vs => simp [Except.map]
      simp only [List.cons_append, urun, ustep, readEach, List.headD_cons, List.tail_cons]
      cases hfe : firstEntry st.fields ((f.name :: f.aliases).map utf8) with
      | some j =>
        simp only [into, hr, hp]
        cases hU : U j f.ty c with
        | error e => rfl
        | ok v =>
          simp only [Except.map, hset]
          refine Eq.trans (ih v { st with val := some j, r := .record (done ++ v :: cs) } rfl) ?_
          exact fin v
      | none =>
        dsimp only
        unfold elseSts at he
        cases hdf : f.dflt with
        | none =>
          rw [hdf] at he
          cases he
          simp only [otherField, hdf]
          rfl
        | some j =>
          rw [hdf] at he
          obtain ⟨L, hL, he⟩ := bind_ok he
          cases he
          simp only [otherField, hdf, hL, hr]
          rw [run_field hq hk hn hfi _ (done ++ c :: cs) c (by simp)]
          cases hx : (GoD.run P new (ctorSts P.nm P.n f.ty ++ L) f.ty true (some c) >>= present) with
          | error e => rfl
          | ok v =>
            have e : (Except.map (fun x => some (Val.record ((done ++ c :: cs).set done.length x))) (.ok v : Made Val) >>= present) = .ok (.record (done ++ v :: cs)) := by
              rw [← hset v]; rfl
            rw [e]
            exact Eq.trans (ih v { st with val := none, r := .record (done ++ v :: cs) } rfl) (fin v)

/-- The rest of the record that a variable holds, by fields. -/
def fieldsOf (P : Spec.GoD.Package) (fs : List PField) : Val → List Val
  | .record vs => vs
  | _ => fs.map fun f => GoD.zero P f.ty

theorem readEach_zero {U : Unmarshal} {new : PTy → Made Val} {k : Nat} {l : List (Str × JTree)} : ∀ fs : List PField,
    readEach P U new k l fs (fs.map fun f => GoD.zero P f.ty) = readEach P U new k l fs []
  | [] => rfl
  | f :: fs => by
    simp only [readEach, List.map_cons, List.headD_cons, List.tail_cons, List.headD_nil, List.tail_nil, readEach_zero fs]

theorem urun_record {U : Unmarshal} {new : PTy → Made Val} {E : EnumFuncs} {q : QName} {d : PDef} {fs : List PField} {doc : Str} (hq : P.n.find q = some d)
    (hk : d.kind = .record fs doc) (hn : (fs.map fun f => fieldGoName P.nm f.name).Nodup) {k : Nat} {data : JTree} {body : List USt}
    (hb : recordUnmarshal P.nm P.n k fs = .ok body) {cur : Val} (hc : ∀ vs, cur = .record vs → vs.length = fs.length) :
    urun P U new E (.ref q) data { r := struct P (.ref q) cur } body = (readMap data).bind fun l => (readEach P U new k l fs (recordPart cur)).map .record := by
  obtain ⟨b, hb', hb⟩ := bind_ok hb
  cases hb
  have hs : struct P (.ref q) cur = .record (fieldsOf P fs cur) := by
    simp only [struct, hq, hk]
    cases cur <;> rfl
  have hlen : (fieldsOf P fs cur).length = fs.length := by
    cases cur with
    | record vs => exact hc vs rfl
    | _ => simp [fieldsOf]
  have hre : ∀ l, readEach P U new k l fs (fieldsOf P fs cur) = readEach P U new k l fs (recordPart cur) := by
    intro l
    cases cur with
    | record vs => rfl
    | _ => exact readEach_zero fs
  simp only [urun, ustep, hs]
  cases readMap data with
  | error e => rfl
  | ok l =>
    have h := urun_reads (U := U) (new := new) (E := E) (data := data) hq hk hn fs [] b [] (fieldsOf P fs cur) { r := .record (fieldsOf P fs cur), fields := l } rfl hb' rfl hlen rfl
    have e : urun P U new E (.ref q) data { r := .record (fieldsOf P fs cur), fields := l } ((if fs.isEmpty = true then [] else [USt.varVal]) ++ (b ++ [USt.retNil])) =
        urun P U new E (.ref q) data { r := .record (fieldsOf P fs cur), fields := l } (b ++ [.retNil]) := by
      split <;> rfl
    refine Eq.trans e (Eq.trans h ?_)
    show _ = (readEach P U new k l fs (recordPart cur)).map Val.record
    rw [hre]
    rfl

/-! ### Fields that the text does not have -/

theorem ctor_constructable (t : PTy) : t.erase.constructable P.n.env = (t.ctor P.nm P.n).isSome := by
  cases t with
  | prim p d => cases p <;> rfl
  | ref q =>
    simp only [PTy.erase, Ty.constructable, PTy.ctor]
    cases hq : P.n.find q with
    | none => rw [env_find, hq]; rfl
    | some d =>
      rw [find_erase hq]
      dsimp only
      cases hk : d.kind with
      | record fs doc => rw [kind_record hk]; rfl
      | enum s e v => rw [kind_enum hk]; rfl
      | fixed k => rw [kind_fixed hk]; rfl
  | _ => rfl

theorem whole_plain {t : PTy} (h : t.ctor P.nm P.n = none) (v : Val) : Whole P.n.env v t.erase := by
  cases v with
  | map m =>
    intro it e
    cases t with
    | map it d => cases h
    | prim p d => cases p <;> cases e
    | _ => cases e
  | record vs =>
    intro q d fs e hq hk
    cases t with
    | ref q' =>
      cases e
      simp only [PTy.ctor] at h
      cases hq' : P.n.find q with
      | none => rw [env_find, hq'] at hq; cases hq
      | some d' =>
        rw [find_erase hq'] at hq
        cases hq
        rw [hq'] at h
        dsimp only at h
        cases hk' : d'.kind with
        | record fs' doc => rw [hk'] at h; cases h
        | enum s e v => rw [kind_enum hk'] at hk; cases hk
        | fixed k => rw [kind_fixed hk'] at hk; cases hk
    | prim p d => cases p <;> cases e
    | _ => cases e
  | _ => trivial

theorem default_sts {g g' : Nat} {j : Json} {t : PTy} {L L' : Sts} (h : defaultSts P.nm P.n g j t = .ok L) (h' : defaultSts P.nm P.n g' j t = .ok L') : L = L' := by
  have e1 := defaultSts_mono (Nat.le_max_left g g') h
  have e2 := defaultSts_mono (Nat.le_max_right g g') h'
  rw [e1] at e2; cases e2; rfl

/-- What Gen/Json gives, the statements do. -/
theorem other_forth (hG : Generated P bodies) {k dn : Nat} {f : PField} {j : Json} {L : Sts} (hd : f.dflt = some j) (hL : defaultSts P.nm P.n k j f.ty = .ok L) {cur v : Val}
    (h : absent P.nm P.n.env dn f.erase cur = .ok v) : ∃ m, ∀ m' ≥ m, otherField P (GoD.makes P bodies m') k f cur = .ok v := by
  have hd' : f.erase.dflt = some j := hd
  unfold absent at h
  rw [hd'] at h
  dsimp only at h
  cases h1 : (defaultTarget P.nm P.n.env dn f.erase.ty cur).bind fun v0 => (applyDefault P.nm P.n.env dn j f.erase.ty true (some v0)).bind present with
  | error e => rw [h1] at h; cases h
  | ok v' =>
    rw [h1] at h
    cases h
    obtain ⟨v0, h2, h1⟩ := bind_ok h1
    obtain ⟨o, h3, h1⟩ := bind_ok h1
    have := present_ok h1
    subst this
    have hB := below hG dn
    suffices hR : Runs P bodies (ctorSts P.nm P.n f.ty ++ L) f.ty true (some cur) (some v) by
      obtain ⟨m, hm⟩ := hR
      refine ⟨m, fun m' hm' => ?_⟩
      simp only [otherField, hd, hL]
      rw [ok_bind (run_mono (fun t v => makes_mono hm') hm)]
      rfl
    have hset : WholeAt P.n.env (some v0) f.ty.erase → Runs P bodies L f.ty true (some v0) (some v) := by
      intro hw
      obtain ⟨L', hg, hr⟩ := hB.set j f.ty true (some v0) (some v) h3 hw
      rw [default_sts hL hg]
      exact hr
    unfold defaultTarget at h2
    cases hc : f.ty.ctor P.nm P.n with
    | none =>
      rw [if_neg (by rw [show f.erase.ty = f.ty.erase from rfl, ctor_constructable, hc]; decide)] at h2
      cases h2
      have e : ctorSts P.nm P.n f.ty = [] := by simp only [ctorSts, hc]
      rw [e, List.nil_append]
      exact hset (.some (whole_plain hc _))
    | some x =>
      rw [if_pos (by rw [show f.erase.ty = f.ty.erase from rfl, ctor_constructable, hc]; rfl)] at h2
      obtain ⟨m, hm⟩ := hB.make f.ty v0 h2
      refine Runs.append ⟨m, ?_⟩ (hset (.some ((default_whole P.nm P.n.env dn).1 _ _ h2)))
      rw [ctor_run hc] at hm ⊢
      exact hm

/-- What the statements do, Gen/Json gives. -/
theorem other_back (hG : Generated P bodies) {k m : Nat} {f : PField} {cur v : Val} (h : otherField P (GoD.makes P bodies m) k f cur = .ok v) :
    ∃ dn, absent P.nm P.n.env dn f.erase cur = .ok v := by
  unfold otherField at h
  cases hd : f.dflt with
  | none => rw [hd] at h; cases h
  | some j =>
    rw [hd] at h
    dsimp only at h
    cases hL : defaultSts P.nm P.n k j f.ty with
    | error e => rw [hL] at h; cases h
    | ok L =>
      rw [hL] at h
      dsimp only at h
      cases hx : (GoD.run P (GoD.makes P bodies m) (ctorSts P.nm P.n f.ty ++ L) f.ty true (some cur) >>= present) with
      | error e => rw [hx] at h; cases h
      | ok v' =>
        rw [hx] at h
        cases h
        obtain ⟨o, h1, h2⟩ := bind_ok hx
        have := present_ok h2
        subst this
        rw [run_append] at h1
        obtain ⟨c, h3, h4⟩ := bind_ok h1
        have hS := sets_all hG (makes_back hG m) (fun _ _ _ _ => makes_union) k
        have fin : ∀ v0 dn, defaultTarget P.nm P.n.env dn f.ty.erase cur = .ok v0 → (∀ dn', dn ≤ dn' → defaultTarget P.nm P.n.env dn' f.ty.erase cur = .ok v0) → c = some v0 →
            WholeAt P.n.env c f.ty.erase → ∃ dn, absent P.nm P.n.env dn f.erase cur = .ok v := by
          intro v0 dn _ ht hc hw
          obtain ⟨kk, hk⟩ := hS j f.ty true c (some v) L hL h4 hw
          refine ⟨max dn kk, ?_⟩
          unfold absent
          rw [show f.erase.dflt = some j from hd, show f.erase.ty = f.ty.erase from rfl]
          dsimp only
          rw [ht _ (Nat.le_max_left ..)]
          subst hc
          show ofMade ((applyDefault P.nm P.n.env (max dn kk) j f.ty.erase true (some v0)).bind present) = .ok v
          rw [apply_mono hk (Nat.le_max_right ..)]
          rfl
        cases hc : f.ty.ctor P.nm P.n with
        | none =>
          have e : ctorSts P.nm P.n f.ty = [] := by simp only [ctorSts, hc]
          rw [e] at h3
          cases h3
          have ht : ∀ dn, defaultTarget P.nm P.n.env dn f.ty.erase cur = .ok cur := fun dn => by
            unfold defaultTarget
            rw [if_neg (by rw [ctor_constructable, hc]; decide)]
          exact fin cur 0 (ht 0) (fun dn _ => ht dn) rfl (.some (whole_plain hc _))
        | some x =>
          rw [ctor_run hc] at h3
          obtain ⟨v0, h5, h6⟩ : ∃ v0, c = some v0 ∧ GoD.run P (GoD.makes P bodies m) (ctorSts P.nm P.n f.ty) f.ty true (some (GoD.zero P f.ty)) = .ok (some v0) := by
            obtain ⟨v0, hv0⟩ := map_ok h3
            exact ⟨v0, hv0.2.symm, by rw [ctor_run hc]; exact h3.trans (by rw [hv0.2])⟩
          obtain ⟨dn, hdn⟩ := makes_back hG m f.ty v0 (resolved_of_sts hL) h6
          have ht : ∀ dn', dn ≤ dn' → defaultTarget P.nm P.n.env dn' f.ty.erase cur = .ok v0 := fun dn' hle => by
            unfold defaultTarget
            rw [if_pos (by rw [ctor_constructable, hc]; rfl)]
            exact construct_mono hdn hle
          exact fin v0 dn (ht dn (Nat.le_refl _)) ht h5 (by rw [h5]; exact .some ((default_whole P.nm P.n.env dn).1 _ _ hdn))

/-! ### The loop -/

/-- The fields that have a default have statements for it. -/
def HasSts (P : Spec.GoD.Package) (k : Nat) (fs : List PField) : Prop := ∀ f ∈ fs, ∀ j, f.dflt = some j → ∃ L, defaultSts P.nm P.n k j f.ty = .ok L

theorem hasSts_of {k : Nat} : ∀ {fs : List PField} {b : List USt}, fieldReads P.nm P.n k fs = .ok b → HasSts P k fs
  | [], _, _ => fun f hf => by cases hf
  | f :: fs, b, h => by
    obtain ⟨e, he, h⟩ := bind_ok h
    obtain ⟨b', hb, h⟩ := bind_ok h
    intro g hg j hj
    rcases List.mem_cons.1 hg with rfl | hg
    · unfold elseSts at he
      rw [hj] at he
      obtain ⟨L, hL, he⟩ := bind_ok he
      exact ⟨L, hL⟩
    · exact hasSts_of hb g hg j hj

theorem each_forth (hG : Generated P bodies) {k dn : Nat} (l : List (Str × JTree)) {get : Str → Option Read}
    (hget : ∀ ks : List Str, firstOf get ks = (firstEntry l (ks.map utf8)).map (unmarshal P.nm P.n.env dn)) : ∀ (fs : List PField) (cs : List Val), HasSts P k fs →
    NoDefErr (fieldsInto P.nm P.n.env dn get (fs.map PField.erase) cs) →
    ∃ m, ∀ m' ≥ m, readEach P (theUnmarshal P dn) (GoD.makes P bodies m') k l fs cs = fieldsInto P.nm P.n.env dn get (fs.map PField.erase) cs
  | [], cs, _, _ => ⟨0, fun _ _ => rfl⟩
  | f :: fs, cs, hs, hp => by
    obtain ⟨p1, p2⟩ := plain_bind hp
    have ih := each_forth hG (k := k) l hget fs cs.tail (fun g hg => hs g (List.mem_cons_of_mem _ hg))
    have hf : ∃ m, ∀ m' ≥ m, (match firstEntry l ((f.name :: f.aliases).map utf8) with
        | some j => theUnmarshal P dn j f.ty (cs.headD (GoD.zero P f.ty))
        | none => otherField P (GoD.makes P bodies m') k f (cs.headD (GoD.zero P f.ty))) =
        fieldInto P.nm P.n.env dn get f.erase (cs.headD (jsonZero P.n.env f.erase.ty)) := by
      rw [show f.erase.ty = f.ty.erase from rfl, zero_json] at p1 ⊢
      unfold fieldInto at p1 ⊢
      rw [show f.erase.name :: f.erase.aliases = f.name :: f.aliases from rfl, hget] at p1 ⊢
      cases hfe : firstEntry l ((f.name :: f.aliases).map utf8) with
      | some j => exact ⟨0, fun _ _ => rfl⟩
      | none =>
        rw [hfe] at p1
        simp only [Option.map_none] at p1 ⊢
        cases hd : f.dflt with
        | none =>
          refine ⟨0, fun _ _ => ?_⟩
          unfold otherField absent
          rw [hd, show f.erase.dflt = none from hd]
        | some j =>
          obtain ⟨L, hL⟩ := hs f (List.mem_cons_self ..) j hd
          cases ha : absent P.nm P.n.env dn f.erase (cs.headD (GoD.zero P f.ty)) with
          | ok v => exact other_forth hG hd hL ha
          | error e =>
            exfalso
            unfold absent at ha p1
            rw [show f.erase.dflt = some j from hd] at ha p1
            dsimp only at ha p1
            rw [ha] at p1
            cases hx : (defaultTarget P.nm P.n.env dn f.erase.ty (cs.headD (GoD.zero P f.ty))).bind fun v0 => (applyDefault P.nm P.n.env dn j f.erase.ty true (some v0)).bind present with
            | ok v => rw [hx] at ha; cases ha
            | error e' => rw [hx] at ha; cases ha; exact p1 e' rfl
    obtain ⟨m1, h1⟩ := hf
    cases hv : fieldInto P.nm P.n.env dn get f.erase (cs.headD (jsonZero P.n.env f.erase.ty)) with
    | error e =>
      refine ⟨m1, fun m' hm' => ?_⟩
      show Except.bind _ _ = Except.bind _ _
      rw [h1 m' hm', hv]
      rfl
    | ok v =>
      obtain ⟨m2, h2⟩ := ih (plain_map (p2 v hv))
      refine ⟨max m1 m2, fun m' hm' => ?_⟩
      show Except.bind _ _ = Except.bind _ _
      rw [h1 m' (by omega), hv]
      show Except.map _ _ = Except.map _ _
      rw [h2 m' (by omega)]

theorem each_back (hG : Generated P bodies) {k dn m : Nat} (l : List (Str × JTree)) {get : Nat → Str → Option Read}
    (hget : ∀ dn, ∀ ks : List Str, firstOf (get dn) ks = (firstEntry l (ks.map utf8)).map (unmarshal P.nm P.n.env dn)) : ∀ (fs : List PField) (cs : List Val), HasSts P k fs →
    NoDefErr (readEach P (theUnmarshal P dn) (GoD.makes P bodies m) k l fs cs) →
    ∃ d, ∀ d' ≥ d, fieldsInto P.nm P.n.env d' (get d') (fs.map PField.erase) cs = readEach P (theUnmarshal P dn) (GoD.makes P bodies m) k l fs cs
  | [], cs, _, _ => ⟨0, fun _ _ => rfl⟩
  | f :: fs, cs, hs, hp => by
    obtain ⟨p1, p2⟩ := plain_bind hp
    have ih := each_back hG (k := k) (m := m) (dn := dn) l hget fs cs.tail (fun g hg => hs g (List.mem_cons_of_mem _ hg))
    have hf : ∃ d, ∀ d' ≥ d, fieldInto P.nm P.n.env d' (get d') f.erase (cs.headD (jsonZero P.n.env f.erase.ty)) =
        (match firstEntry l ((f.name :: f.aliases).map utf8) with
        | some j => theUnmarshal P dn j f.ty (cs.headD (GoD.zero P f.ty))
        | none => otherField P (GoD.makes P bodies m) k f (cs.headD (GoD.zero P f.ty))) := by
      rw [show f.erase.ty = f.ty.erase from rfl, zero_json]
      unfold fieldInto
      rw [show f.erase.name :: f.erase.aliases = f.name :: f.aliases from rfl]
      simp only [hget]
      cases hfe : firstEntry l ((f.name :: f.aliases).map utf8) with
      | some j =>
        rw [hfe] at p1
        exact ⟨dn, fun d' hd' => unmarshal_le hd' j _ _ p1⟩
      | none =>
        rw [hfe] at p1
        simp only [Option.map_none]
        dsimp only at p1
        cases ha : otherField P (GoD.makes P bodies m) k f (cs.headD (GoD.zero P f.ty)) with
        | ok v =>
          obtain ⟨d, hd⟩ := other_back hG ha
          exact ⟨d, fun d' hd' => by rw [absent_le hd' (by rw [hd]; intro e h; cases h), hd]⟩
        | error e =>
          rw [ha] at p1
          unfold otherField at ha
          cases hd : f.dflt with
          | none =>
            rw [hd] at ha
            cases ha
            refine ⟨0, fun _ _ => ?_⟩
            unfold absent
            rw [show f.erase.dflt = none from hd]
          | some j =>
            exfalso
            obtain ⟨L, hL⟩ := hs f (List.mem_cons_self ..) j hd
            rw [hd] at ha
            dsimp only at ha
            rw [hL] at ha
            dsimp only at ha
            cases hx : (GoD.run P (GoD.makes P bodies m) (ctorSts P.nm P.n f.ty ++ L) f.ty true (some (cs.headD (GoD.zero P f.ty))) >>= present) with
            | ok v => rw [hx] at ha; cases ha
            | error e' => rw [hx] at ha; cases ha; exact p1 e' rfl
    obtain ⟨d1, h1⟩ := hf
    cases hv : (match firstEntry l ((f.name :: f.aliases).map utf8) with
        | some j => theUnmarshal P dn j f.ty (cs.headD (GoD.zero P f.ty))
        | none => otherField P (GoD.makes P bodies m) k f (cs.headD (GoD.zero P f.ty))) with
    | error e =>
      refine ⟨d1, fun d' hd' => ?_⟩
      show Except.bind _ _ = Except.bind _ _
      rw [h1 d' hd', hv]
      rfl
    | ok v =>
      obtain ⟨d2, h2⟩ := ih (plain_map (p2 v hv))
      refine ⟨max d1 d2, fun d' hd' => ?_⟩
      show Except.bind _ _ = Except.bind _ _
      rw [h1 d' (by omega), hv]
      show Except.map _ _ = Except.map _ _
      rw [h2 d' (by omega)]

/-- The entries of a text, as Gen/Json reads them. -/
def getOf (P : Spec.GoD.Package) (dn : Nat) : JTree → Str → Option Read
  | .obj kvs => lastMember (keyed P.nm P.n.env dn kvs)
  | _ => fun _ => none

theorem firstOf_missing : ∀ ks : List Str, firstOf (fun _ => none) ks = none
  | [] => rfl
  | _ :: ks => firstOf_missing ks

theorem firstEntry_nil : ∀ ks : List (List Byte), firstEntry [] ks = none
  | [] => rfl
  | _ :: ks => firstEntry_nil ks

theorem getOf_first {data : JTree} {l : List (Str × JTree)} (h : readMap data = .ok l) (dn : Nat) (ks : List Str) :
    firstOf (getOf P dn data) ks = (firstEntry l (ks.map utf8)).map (unmarshal P.nm P.n.env dn) := by
  cases data with
  | obj kvs => cases h; exact firstEntry_of dn l ks
  | null => cases h; rw [firstEntry_nil]; exact firstOf_missing ks
  | _ => cases h

theorem unmarshal_record {q : QName} {d : PDef} {fs : List PField} {doc : Str} (hq : P.n.find q = some d) (hk : d.kind = .record fs doc) (dn : Nat) (data : JTree) (cur : Val) :
    unmarshal P.nm P.n.env dn data (.ref q) cur = (readMap data).bind fun _ => (fieldsInto P.nm P.n.env dn (getOf P dn data) (fs.map PField.erase) (recordPart cur)).map .record := by
  cases data with
  | null => simp only [unmarshal, nullInto, find_erase hq, kind_record hk, recordInto]; rfl
  | bool b => simp only [unmarshal, boolInto]; rfl
  | num x => simp only [unmarshal, numInto]; rfl
  | str s => simp only [unmarshal, strInto, find_erase hq, kind_record hk]; rfl
  | arr js => simp only [unmarshal, arrInto]; rfl
  | obj kvs => simp only [unmarshal, objInto, find_erase hq, kind_record hk, recordInto]; rfl

theorem record_forth (hG : Generated P bodies) {E : EnumFuncs} {q : QName} {d : PDef} {fs : List PField} {doc : Str} (hq : P.n.find q = some d)
    (hk : d.kind = .record fs doc) {k : Nat} {data : JTree} {body : List USt} (hb : recordUnmarshal P.nm P.n k fs = .ok body) {cur : Val}
    (hc : ∀ vs, cur = .record vs → vs.length = fs.length) {dn : Nat} (hp : NoDefErr (unmarshal P.nm P.n.env dn data (.ref q) cur)) :
    ∃ m, ∀ m' ≥ m, urun P (theUnmarshal P dn) (GoD.makes P bodies m') E (.ref q) data { r := struct P (.ref q) cur } body = unmarshal P.nm P.n.env dn data (.ref q) cur := by
  obtain ⟨b, hb', -⟩ := bind_ok hb
  rw [unmarshal_record hq hk] at hp ⊢
  simp only [urun_record hq hk (hG.names q d fs doc hq hk) hb hc]
  cases hr : readMap data with
  | error e => exact ⟨0, fun _ _ => rfl⟩
  | ok l =>
    rw [hr] at hp
    obtain ⟨m, h⟩ := each_forth hG (k := k) l (getOf_first hr dn) fs (recordPart cur) (hasSts_of hb') (plain_map hp)
    refine ⟨m, fun m' hm' => ?_⟩
    show Except.map _ _ = Except.map _ _
    rw [h m' hm']

theorem record_back (hG : Generated P bodies) {E : EnumFuncs} {q : QName} {d : PDef} {fs : List PField} {doc : Str} (hq : P.n.find q = some d)
    (hk : d.kind = .record fs doc) {k : Nat} {data : JTree} {body : List USt} (hb : recordUnmarshal P.nm P.n k fs = .ok body) {cur : Val}
    (hc : ∀ vs, cur = .record vs → vs.length = fs.length) {dn m : Nat}
    (hp : NoDefErr (urun P (theUnmarshal P dn) (GoD.makes P bodies m) E (.ref q) data { r := struct P (.ref q) cur } body)) :
    ∃ n, ∀ n' ≥ n, unmarshal P.nm P.n.env n' data (.ref q) cur = urun P (theUnmarshal P dn) (GoD.makes P bodies m) E (.ref q) data { r := struct P (.ref q) cur } body := by
  obtain ⟨b, hb', -⟩ := bind_ok hb
  rw [urun_record hq hk (hG.names q d fs doc hq hk) hb hc] at hp ⊢
  simp only [unmarshal_record hq hk]
  cases hr : readMap data with
  | error e => exact ⟨0, fun _ _ => rfl⟩
  | ok l =>
    rw [hr] at hp
    obtain ⟨n, h⟩ := each_back hG (k := k) l (get := fun dn => getOf P dn data) (getOf_first hr) fs (recordPart cur) (hasSts_of hb') (plain_map hp)
    refine ⟨n, fun n' hn' => ?_⟩
    show Except.map _ _ = Except.map _ _
    rw [h n' hn']

/-! ### Unions -/

theorem several_iff (ks : List Str) : severalKeys ks = true ↔ 1 < ks.eraseDups.length := by
  cases ks with
  | nil => simp [severalKeys]
  | cons k ks =>
    rw [List.eraseDups_cons]
    simp only [severalKeys, List.length_cons]
    constructor
    · intro h
      obtain ⟨x, h1, h2⟩ := List.any_eq_true.1 h
      have : x ∈ (ks.filter fun b => !b == k).eraseDups := by
        rw [List.mem_eraseDups, List.mem_filter]
        exact ⟨h1, by simpa using h2⟩
      have := List.length_pos_of_mem this
      omega
    · intro h
      have hpos : 0 < (ks.filter fun b => !b == k).eraseDups.length := by omega
      obtain ⟨x, hx⟩ := List.exists_mem_of_length_pos hpos
      rw [List.mem_eraseDups, List.mem_filter] at hx
      exact List.any_eq_true.2 ⟨x, hx.1, by simpa using hx.2⟩

/-- What the member that a text names is read into. -/
theorem into_member {name : Str} {ts : List PTy} {d : List Json} (hn : (ts.map (PTy.goName P.nm P.n)).Nodup) (hb : ts.length < 2 ^ 63) {i : Nat} {u : PTy}
    (hu : ts[i]? = some u) (cur : Val) (dn : Nat) (j : JTree) :
    into P (theUnmarshal P dn) (.union name ts d) (select i (struct P (.union name ts d) cur)) (u.goName P.nm P.n) j =
      (unmarshal P.nm P.n.env dn j u.erase (memberCur P.n.env u.erase i cur)).map fun v => .union (BitVec.ofNat 64 i) (some v) := by
  obtain ⟨x, h1, h2⟩ : ∃ x, select i (struct P (.union name ts d) cur) = .union (BitVec.ofNat 64 i) x ∧ x.getD (GoD.zero P u) = memberCur P.n.env u.erase i cur := by
    cases cur with
    | union tag x =>
      refine ⟨_, rfl, ?_⟩
      cases x with
      | none =>
        simp only [memberCur, zero_json]
        split <;> rfl
      | some v =>
        simp only [memberCur, zero_json]
        split <;> rfl
    | _ =>
      refine ⟨_, rfl, ?_⟩
      simp only [memberCur, zero_json]
      split <;> rfl
  rw [h1]
  simp only [into, part, named_member hn hu, if_true, h2]
  rfl

theorem urun_members {new : PTy → Made Val} {E : EnumFuncs} {name : Str} {ts : List PTy} {d : List Json} (hn : (ts.map (PTy.goName P.nm P.n)).Nodup)
    (hb : ts.length < 2 ^ 63) (hk : ∀ u ∈ ts, (unionKey P.n.env u.erase).isSome = true) {null : Option Nat} {data : JTree} {dn : Nat} {cur : Val} {msg : List Byte}
    {get : Str → Option Read} : ∀ (rest pre : List PTy) (st : UState), ts = pre ++ rest → st.r = struct P (.union name ts d) cur →
    (∀ k, get k = (entry st.fields (utf8 k)).map (unmarshal P.nm P.n.env dn)) →
    urun P (theUnmarshal P dn) new E (.union name ts d) data st (memberReads P.nm P.n null pre.length rest ++ [.fail msg]) =
      membersInto P.n.env null get cur (rest.map PTy.erase) pre.length
  | [], pre, st, hp, hr, hg => rfl
  | u :: rest, pre, st, hp, hr, hg => by
    have ih := urun_members (new := new) (E := E) (d := d) (name := name) (null := null) (data := data) (dn := dn) (cur := cur) (msg := msg) (get := get) hn hb hk rest (pre ++ [u]) st (by rw [hp]; simp) hr hg
    rw [List.length_append, List.length_singleton] at ih
    have hu : ts[pre.length]? = some u := by rw [hp]; simp
    simp only [memberReads, List.map_cons, membersInto]
    by_cases h0 : null = some pre.length
    · rw [if_pos h0, if_pos h0, List.nil_append]; exact ih
    · rw [if_neg h0, if_neg h0]
      have hkey := hk u (List.mem_of_getElem? hu)
      obtain ⟨key, hkey⟩ := Option.isSome_iff_exists.1 hkey
      have e : u.key P.n = key := by unfold PTy.key; rw [hkey]; rfl
      simp only [List.cons_append, List.nil_append, urun, ustep, hkey, Option.bind_some, hg, e, ← utf8_bytesOf]
      cases he : entry st.fields (utf8 key) with
      | none => exact ih
      | some j =>
        simp only [Option.map_some]
        rw [hr, into_member hn hb hu]

/-- null sets a pointer to nil without the method. -/
theorem union_unmarshal {new : PTy → Made Val} {E : EnumFuncs} {name : Str} {ts : List PTy} {d : List Json} (type : Str) (hn : (ts.map (PTy.goName P.nm P.n)).Nodup)
    (hb : ts.length < 2 ^ 63) (hk : ∀ u ∈ ts, (unionKey P.n.env u.erase).isSome = true) {data : JTree} (hj : data = .null → (nullAt 0 ts).isSome = false) (dn : Nat) (cur : Val) :
    urun P (theUnmarshal P dn) new E (.union name ts d) data { r := struct P (.union name ts d) cur } (unionUnmarshal P.nm P.n type ts) =
      unmarshal P.nm P.n.env dn data (PTy.erase (.union name ts d)) cur := by
  have h := fun l (get : Str → Option Read) => urun_members (new := new) (E := E) (d := d) (name := name) (null := nullAt 0 ts) (data := data) (dn := dn) (cur := cur)
    (msg := bytesOf (unionMessage type)) (get := get) hn hb hk ts [] { r := struct P (.union name ts d) cur, fields := l } rfl rfl
  have hm : membersInto P.n.env (nullAt 0 ts) (fun _ => none) cur (ts.map PTy.erase) 0 = .error .refused := by
    generalize nullAt 0 ts = nul
    generalize 0 = i
    generalize ts.map PTy.erase = us
    induction us generalizing i with
    | nil => rfl
    | cons u us ih =>
      simp only [membersInto]
      split
      · exact ih _
      · cases unionKey P.n.env u <;> exact ih _
  simp only [unionUnmarshal, List.cons_append, List.nil_append, urun, ustep, PTy.erase]
  cases data with
  | null =>
    have hj := hj rfl
    simp only [readMap, unmarshal, nullInto]
    rw [← null_any ts 0, hj]
    exact (h [] (fun _ => none) (fun k => rfl)).trans hm
  | bool b => simp only [readMap, unmarshal, boolInto]
  | num x => simp only [readMap, unmarshal, numInto]
  | str s => simp only [readMap, unmarshal, strInto]
  | arr js => simp only [readMap, unmarshal, arrInto]
  | obj kvs =>
    simp only [readMap, unmarshal, objInto]
    have hkeys : (keyed P.nm P.n.env dn kvs).map Prod.fst = kvs.map Prod.fst := by
      rw [keyed_eq, List.map_map]; rfl
    rw [hkeys]
    by_cases hs : 1 < (kvs.map Prod.fst).eraseDups.length
    · rw [if_pos hs, if_pos ((several_iff _).2 hs)]
    · rw [if_neg hs, if_neg (fun h => hs ((several_iff _).1 h)), null_erase, erases_map]
      exact h kvs (lastMember (keyed P.nm P.n.env dn kvs)) (fun k => keyed_member dn kvs k)

/-! ### Enums, fixed, bytes -/

theorem valueOf_at {q : QName} {d : PDef} {syms : List Str} {doc dflt : Str} (hq : P.n.find q = some d) (hk : d.kind = .enum syms doc dflt)
    (hn : (syms.map (symbolGoName P.nm (d.goName P.nm))).Nodup) (other : Option Str) (raw : Str) : ∀ (rest pre : List Str), syms = pre ++ rest →
    valueOf P (.ref q) other (utf8 raw) (rest.map fun s => (bytesOf s, symbolGoName P.nm (d.goName P.nm) s)) =
      match symbolIndexFrom pre.length rest raw with
      | some i => .ok (.enum (BitVec.ofNat 32 i))
      | none => match other with
        | none => .error .refused
        | some c => ofMade ((orBuild (enumConst P (.ref q) c)).map .enum)
  | [], pre, hp => rfl
  | s :: rest, pre, hp => by
    have hs : syms[pre.length]? = some s := by rw [hp]; simp
    have hc : enumConst P (.ref q) (symbolGoName P.nm (d.goName P.nm) s) = some (BitVec.ofNat 32 pre.length) := by
      simp only [enumConst, hq, hk]
      exact symbolConst_ok hn hs
    simp only [List.map_cons, valueOf, symbolIndexFrom]
    by_cases h : s = raw
    · rw [if_pos h, if_pos (by rw [h, utf8_bytesOf]), hc]
      rfl
    · rw [if_neg h, if_neg (by rw [← utf8_bytesOf]; exact fun e => h (utf8_inj e))]
      have := valueOf_at hq hk hn other raw rest (pre ++ [s]) (by rw [hp]; simp)
      rw [List.length_append, List.length_singleton] at this
      exact this

theorem value_enum {q : QName} {d : PDef} {syms : List Str} {doc dflt : Str} (hq : P.n.find q = some d) (hk : d.kind = .enum syms doc dflt)
    (hn : (syms.map (symbolGoName P.nm (d.goName P.nm))).Nodup) (raw : Str) :
    valueOf P (.ref q) (enumFuncs P.nm (d.goName P.nm) syms dflt).other (utf8 raw) (enumFuncs P.nm (d.goName P.nm) syms dflt).values =
      enumFrom P.nm (d.goName P.nm) syms dflt raw := by
  refine (valueOf_at hq hk hn _ raw syms [] rfl).trans ?_
  simp only [enumFrom, symbolIndex, List.length_nil]
  cases symbolIndexFrom 0 syms raw with
  | some i => rfl
  | none =>
    simp only [enumFuncs]
    by_cases h : dflt = []
    · rw [if_pos h, if_pos h]
    · rw [if_neg h, if_neg h, symbolConst_eq]
      simp only [enumConst, hq, hk]

theorem enum_unmarshal {new : PTy → Made Val} {q : QName} {d : PDef} {syms : List Str} {doc dflt : Str} (hq : P.n.find q = some d) (hk : d.kind = .enum syms doc dflt)
    (hn : (syms.map (symbolGoName P.nm (d.goName P.nm))).Nodup) (data : JTree) (dn : Nat) (cur : Val) :
    urun P (theUnmarshal P dn) new (enumFuncs P.nm (d.goName P.nm) syms dflt) (.ref q) data { r := cur } (enumUnmarshal (d.goName P.nm)) =
      unmarshal P.nm P.n.env dn data (.ref q) cur := by
  have key : ∀ s, (match (match valueOf P (.ref q) (enumFuncs P.nm (d.goName P.nm) syms dflt).other (utf8 s) (enumFuncs P.nm (d.goName P.nm) syms dflt).values with
      | .ok v => ({ r := cur, text := s, const := v } : UState)
      | .error e => { r := cur, text := s, const := .enum (BitVec.ofInt 32 (-1)), err := some e }).err with
      | none => (.ok (match valueOf P (.ref q) (enumFuncs P.nm (d.goName P.nm) syms dflt).other (utf8 s) (enumFuncs P.nm (d.goName P.nm) syms dflt).values with
        | .ok v => v
        | .error _ => .enum (BitVec.ofInt 32 (-1))) : JRes Val)
      | some e => .error e) = enumFrom P.nm (d.goName P.nm) syms dflt s := by
    intro s
    rw [value_enum hq hk hn]
    cases enumFrom P.nm (d.goName P.nm) syms dflt s <;> rfl
  have run : ∀ s, readText [] data = .ok s → urun P (theUnmarshal P dn) new (enumFuncs P.nm (d.goName P.nm) syms dflt) (.ref q) data { r := cur } (enumUnmarshal (d.goName P.nm)) =
      enumFrom P.nm (d.goName P.nm) syms dflt s := by
    intro s hs
    rw [← key s]
    simp only [enumUnmarshal, urun, ustep, hs]
    cases valueOf P (.ref q) (enumFuncs P.nm (d.goName P.nm) syms dflt).other (utf8 s) (enumFuncs P.nm (d.goName P.nm) syms dflt).values <;> rfl
  have bad : readText [] data = .error .refused → urun P (theUnmarshal P dn) new (enumFuncs P.nm (d.goName P.nm) syms dflt) (.ref q) data { r := cur } (enumUnmarshal (d.goName P.nm)) =
      .error .refused := by
    intro hs
    simp only [enumUnmarshal, urun, ustep, hs]
  have hgo : P.nm.publicName d.erase.name.str = d.goName P.nm := rfl
  cases data with
  | null => rw [run [] rfl]; simp only [unmarshal, nullInto, find_erase hq, kind_enum hk, hgo]
  | str s => rw [run s rfl]; simp only [unmarshal, strInto, find_erase hq, kind_enum hk, hgo]
  | bool b => rw [bad rfl]; simp only [unmarshal, boolInto]
  | num x => rw [bad rfl]; simp only [unmarshal, numInto]
  | arr js => rw [bad rfl]; simp only [unmarshal, arrInto]
  | obj kvs => rw [bad rfl]; simp only [unmarshal, objInto, find_erase hq, kind_enum hk]

theorem fixed_unmarshal {new : PTy → Made Val} {E : EnumFuncs} {q : QName} {d : PDef} {z : Int} (hq : P.n.find q = some d) (hk : d.kind = .fixed z)
    (data : JTree) (dn : Nat) (bs : List Byte) :
    urun P (theUnmarshal P dn) new E (.ref q) data { r := .fixed bs } fixedUnmarshal = unmarshal P.nm P.n.env dn data (.ref q) (.fixed bs) := by
  simp only [fixedUnmarshal, urun, ustep]
  cases data with
  | null => simp only [readText, unmarshal, nullInto, find_erase hq, kind_fixed hk]; simp [decodeByteString, copyOver]
  | str s => simp only [readText, unmarshal, strInto, find_erase hq, kind_fixed hk]; rfl
  | bool b => simp only [readText, unmarshal, boolInto]
  | num x => simp only [readText, unmarshal, numInto]
  | arr js => simp only [readText, unmarshal, arrInto]
  | obj kvs => simp only [readText, unmarshal, objInto, find_erase hq, kind_fixed hk]

theorem bytes_unmarshal {new : PTy → Made Val} {E : EnumFuncs} (dflt : Json) (data : JTree) (dn : Nat) (cur : Val) :
    urun P (theUnmarshal P dn) new E (.prim .bytes dflt) data { r := cur } bytesUnmarshal = unmarshal P.nm P.n.env dn data .bytes cur := by
  simp only [bytesUnmarshal, urun, ustep]
  cases data with
  | null => simp only [readText, unmarshal, nullInto]; rfl
  | str s => simp only [readText, unmarshal, strInto]
  | bool b => simp only [readText, unmarshal, boolInto]
  | num x => simp only [readText, unmarshal, numInto]
  | arr js => simp only [readText, unmarshal, arrInto]
  | obj kvs => simp only [readText, unmarshal, objInto]

end Verif
