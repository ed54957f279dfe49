import Verif.Gen.Twin
import Verif.Gen.Decode
import Verif.Spec.Refused
/-
What schema pairs that mean the same have in common: the pairs of types the compiler meets, and
whether it refuses them.
-/
set_option linter.unusedSimpArgs false
set_option linter.unusedVariables false
namespace Verif
open Spec

section
variable {e e' : Env} {R : Ty → Ty → Prop}

theorem twin_union (h : Bisim e e' R) {ts : List Ty} {t' : Ty} (ht : R (.union ts) t') : ∃ ts', t' = .union ts' ∧ Each R ts ts' := by
  cases h _ _ ht with
  | union h1 => exact ⟨_, rfl, h1⟩
  | prim hp => simp [primitives] at hp

theorem twin_array (h : Bisim e e' R) {t t' : Ty} (ht : R (.array t) t') : ∃ u, t' = .array u ∧ R t u := by
  cases h _ _ ht with
  | array h1 => exact ⟨_, rfl, h1⟩
  | prim hp => simp [primitives] at hp

theorem twin_map (h : Bisim e e' R) {t t' : Ty} (ht : R (.map t) t') : ∃ u, t' = .map u ∧ R t u := by
  cases h _ _ ht with
  | map h1 => exact ⟨_, rfl, h1⟩
  | prim hp => simp [primitives] at hp

theorem twin_ref (h : Bisim e e' R) {q : QName} {t' : Ty} (ht : R (.ref q) t') : ∃ q' d d', t' = .ref q' ∧ e.find q = some d ∧
    e'.find q' = some d' ∧ d.name = d'.name ∧ d.aliases = d'.aliases ∧ BodyTwin R d.kind d'.kind := by
  cases h _ _ ht with
  | ref h1 h2 h3 h4 h5 => exact ⟨_, _, _, rfl, h1, h2, h3, h4, h5⟩
  | prim hp => simp [primitives] at hp

theorem twin_not_union (h : Bisim e e' R) {t t' : Ty} (ht : R t t') (hn : ∀ ts, t ≠ .union ts) : ∀ ts, t' ≠ .union ts := by
  rintro ts rfl
  obtain ⟨ts', rfl, -⟩ := twin_union h.flip ht
  exact hn _ rfl

theorem twin_not_array (h : Bisim e e' R) {t t' : Ty} (ht : R t t') (hn : ∀ u, t ≠ .array u) : ∀ u, t' ≠ .array u := by
  rintro u rfl
  obtain ⟨u', rfl, -⟩ := twin_array h.flip ht
  exact hn _ rfl

theorem twin_not_map (h : Bisim e e' R) {t t' : Ty} (ht : R t t') (hn : ∀ u, t ≠ .map u) : ∀ u, t' ≠ .map u := by
  rintro u rfl
  obtain ⟨u', rfl, -⟩ := twin_map h.flip ht
  exact hn _ rfl

theorem twin_not_ref (h : Bisim e e' R) {t t' : Ty} (ht : R t t') (hn : ∀ q, t ≠ .ref q) : ∀ q, t' ≠ .ref q := by
  rintro q rfl
  obtain ⟨q', _, _, rfl, -⟩ := twin_ref h.flip ht
  exact hn _ rfl

theorem twin_null (h : Bisim e e' R) {t t' : Ty} (ht : R t t') : t = .null ↔ t' = .null := by
  constructor
  · rintro rfl; cases h _ _ ht; rfl
  · rintro rfl; cases h _ _ ht; rfl

theorem twin_isUnion (h : Bisim e e' R) {t t' : Ty} (ht : R t t') : t.isUnion = t'.isUnion := by
  cases h _ _ ht <;> rfl
end

section
variable {we re we' re' : Env} {W R : Ty → Ty → Prop} (hw : Bisim we we' W) (hr : Bisim re re' R)
include hw hr

theorem next_twin {w r w1 r1 w' r' : Ty} (h : Next we re w r w1 r1) (h1 : W w w') (h2 : R r r') :
    ∃ w1' r1', Next we' re' w' r' w1' r1' ∧ W w1 w1' ∧ R r1 r1' := by
  cases h with
  | item =>
    obtain ⟨u, rfl, h3⟩ := twin_array hw h1
    obtain ⟨v, rfl, h4⟩ := twin_array hr h2
    exact ⟨_, _, .item, h3, h4⟩
  | value =>
    obtain ⟨u, rfl, h3⟩ := twin_map hw h1
    obtain ⟨v, rfl, h4⟩ := twin_map hr h2
    exact ⟨_, _, .value, h3, h4⟩
  | into hu hf =>
    obtain ⟨rs', rfl, h3⟩ := twin_union hr h2
    rcases findIdx_twin (p' := w'.readableBy we' re') (fun t t' ht => readable_twin hw hr h1 ht) h3 0 with ⟨h4, -⟩ | ⟨j, t, t', h4, h5, h6⟩
    · rw [hf] at h4; cases h4
    · rw [hf] at h4; cases h4
      exact ⟨_, _, .into (by rw [← twin_isUnion hw h1]; exact hu) h5, h1, h6⟩
  | @field q q' wd rd wfs rfs wf i rf a1 a2 a3 a4 a5 a6 a7 =>
    obtain ⟨p, d, d', rfl, b1, b2, b3, b4, b5⟩ := twin_ref hw h1
    obtain ⟨p', c, c', rfl, c1, c2, c3, c4, c5⟩ := twin_ref hr h2
    rw [a1] at b1; cases b1
    rw [a2] at c1; cases c1
    rw [a3] at b5; rw [a4] at c5
    generalize hk1 : d'.kind = k1 at b5
    generalize hk2 : c'.kind = k2 at c5
    cases b5 with
    | record b6 =>
      cases c5 with
      | record c6 =>
        obtain ⟨wf', b7, b8⟩ := each_mem_left b6 a5
        rcases fieldByName_twin c6 wf.name 0 with ⟨h4, -⟩ | ⟨j, f, f', h4, h5, h6⟩
        · rw [show fieldByNameFrom 0 rfs wf.name = _ from a6] at h4; cases h4
        · rw [show fieldByNameFrom 0 rfs wf.name = _ from a6] at h4; cases h4
          refine ⟨_, _, .field b2 c2 hk1 hk2 b7 (by unfold fieldByName; rw [← b8.name]; exact h5) ?_, b8.ty, h6.ty⟩
          rw [← readable_twin hw hr b8.ty h6.ty]; exact a7
  | named a1 a2 a3 =>
    obtain ⟨ts', rfl, h3⟩ := twin_union hw h1
    obtain ⟨rs', rfl, h4⟩ := twin_union hr h2
    obtain ⟨t', h5, h6⟩ := each_mem_left h3 a1
    rcases findIdx_twin (p := fun r => r.goName re == w1.goName we) (p' := fun r => r.goName re' == t'.goName we')
      (fun u u' hu => by rw [step_goName hr _ _ hu, step_goName hw _ _ h6]) h4 0 with ⟨h7, -⟩ | ⟨j, x, x', h7, h8, h9⟩
    · rw [a3] at h7; cases h7
    · rw [a3] at h7; cases h7
      exact ⟨_, _, .named h5 (by rw [← isNull_twin hw h6]; exact a2) h8, h6, h9⟩
  | first a1 a2 a3 a4 =>
    obtain ⟨ts', rfl, h3⟩ := twin_union hw h1
    obtain ⟨rs', rfl, h4⟩ := twin_union hr h2
    obtain ⟨t', h5, h6⟩ := each_mem_left h3 a1
    rcases findIdx_twin (p := fun r => r.goName re == w1.goName we) (p' := fun r => r.goName re' == t'.goName we')
      (fun u u' hu => by rw [step_goName hr _ _ hu, step_goName hw _ _ h6]) h4 0 with ⟨h7, h8⟩ | ⟨j, x, x', h7, h8, h9⟩
    · rcases findIdx_twin (p' := t'.readableBy we' re') (fun u u' hu => readable_twin hw hr h6 hu) h4 0 with ⟨h9, -⟩ | ⟨j, x, x', h9, h10, h11⟩
      · rw [a4] at h9; cases h9
      · rw [a4] at h9; cases h9
        exact ⟨_, _, .first h5 (by rw [← isNull_twin hw h6]; exact a2) h8 h10, h6, h11⟩
    · rw [a3] at h7; cases h7
  | single a1 a2 a3 a4 =>
    obtain ⟨ts', rfl, h3⟩ := twin_union hw h1
    obtain ⟨t', h5, h6⟩ := each_mem_left h3 a1
    exact ⟨_, _, .single h5 (by rw [← isNull_twin hw h6]; exact a2) (by rw [← twin_isUnion hr h2]; exact a3)
      (by rw [← readable_twin hw hr h6 h2]; exact a4), h6, h2⟩

theorem meets_twin {w r w1 r1 : Ty} (h : Meets we re w r w1 r1) : ∀ {w' r'}, W w w' → R r r' →
    ∃ w1' r1', Meets we' re' w' r' w1' r1' ∧ W w1 w1' ∧ R r1 r1' := by
  induction h with
  | here => intro w' r' h1 h2; exact ⟨_, _, .here, h1, h2⟩
  | step h _ ih =>
    intro w' r' h1 h2
    obtain ⟨a, b, h3, h4, h5⟩ := next_twin hw hr h h1 h2
    obtain ⟨c, d, h6, h7, h8⟩ := ih h4 h5
    exact ⟨c, d, .step h3 h6, h7, h8⟩

theorem clash_twin {w r w' r' : Ty} (h : NullClash w r) (h1 : W w w') (h2 : R r r') : NullClash w' r' := by
  rcases h with ⟨rfl, h3⟩ | ⟨ts, rfl, h3, rfl⟩
  · exact .inl ⟨(twin_null hw h1).1 rfl, fun h4 => h3 ((twin_null hr h2).2 h4)⟩
  · obtain ⟨ts', rfl, h4⟩ := twin_union hw h1
    obtain ⟨t', h5, h6⟩ := each_mem_left h4 h3
    exact .inr ⟨ts', rfl, by rw [(twin_null hw h6).1 rfl] at h5; exact h5, (twin_null hr h2).1 rfl⟩

end

theorem nullsAgree_twin {we re we' re' : Env} {W R : Ty → Ty → Prop} (hw : Bisim we we' W) (hr : Bisim re re' R)
    {w r w' r' : Ty} (h : NullsAgree we re w r) (h1 : W w w') (h2 : R r r') : NullsAgree we' re' w' r' := by
  intro w1 r1 hm hc
  obtain ⟨a, b, h3, h4, h5⟩ := meets_twin hw.flip hr.flip hm h1 h2
  exact h _ _ h3 (clash_twin hw.flip hr.flip hc h4 h5)

section
variable {R : Ty → Ty → Prop}

theorem answers_twin {f f' : Field} (h : FieldTwin R f f') (n : Str) : f.answers n ↔ f'.answers n := by
  unfold Field.answers; rw [h.name, h.aliases]

theorem Answers.twin {rfs rfs' : List Field} (h : Each (FieldTwin R) rfs rfs') {n : Str} {j : Nat} {rf : Field}
    (ha : Answers rfs n j rf) : ∃ rf', Answers rfs' n j rf' ∧ FieldTwin R rf rf' := by
  rcases each_get h j with ⟨h1, -⟩ | ⟨a, b, h1, h2, h3⟩
  · rw [ha.get] at h1; cases h1
  · rw [ha.get] at h1; cases h1
    refine ⟨b, ⟨h2, (answers_twin h3 n).1 ha.answers, fun i g hi hg hn => ?_⟩, h3⟩
    rcases each_get h i with ⟨-, h4⟩ | ⟨a, b, h4, h5, h6⟩
    · rw [hg] at h4; cases h4
    · rw [hg] at h5; cases h5
      exact ha.first i a hi h4 ((answers_twin h6 n).2 hn)

theorem first_twin {P P' : Ty → Prop} (hp : ∀ t t', R t t' → (P t ↔ P' t')) {ts ts' : List Ty} (h : Each R ts ts') {j t}
    (hf : First P ts j t) : ∃ t', First P' ts' j t' ∧ R t t' := by
  rcases each_get h j with ⟨h1, -⟩ | ⟨a, b, h1, h2, h3⟩
  · rw [hf.get] at h1; cases h1
  · rw [hf.get] at h1; cases h1
    refine ⟨b, ⟨h2, (hp _ _ h3).1 hf.holds, fun i g hi hg hn => ?_⟩, h3⟩
    rcases each_get h i with ⟨-, h4⟩ | ⟨a, b, h4, h5, h6⟩
    · rw [hg] at h4; cases h4
    · rw [hg] at h5; cases h5
      exact hf.first i a hi h4 ((hp _ _ h6).2 hn)

theorem each_mem_right {α β : Type} {R : α → β → Prop} {l l'} (h : Each R l l') {b} (hb : b ∈ l') : ∃ a ∈ l, R a b := by
  obtain ⟨a, h1, h2⟩ := each_mem_left (each_flip h) hb
  exact ⟨a, h1, h2⟩
end

theorem canRead_twin_iff {we re we' re' : Env} {W R : Ty → Ty → Prop} (hw : Bisim we we' W) (hr : Bisim re re' R) {w w' r r' : Ty}
    (h1 : W w w') (h2 : R r r') : CanRead we re w r ↔ CanRead we' re' w' r' :=
  ⟨fun h => canRead_twin hw hr h h1 h2, fun h => canRead_twin hw.flip hr.flip h h1 h2⟩

/-- Relation of optional types. -/
def OptTwin (R : Ty → Ty → Prop) : Option Ty → Option Ty → Prop
  | none, none => True
  | some t, some t' => R t t'
  | _, _ => False

theorem optTwin_some {R : Ty → Ty → Prop} {t : Ty} {o : Option Ty} (h : OptTwin R (some t) o) : ∃ t', o = some t' ∧ R t t' := by
  cases o with
  | none => cases h
  | some t' => exact ⟨t', rfl, h⟩

theorem optTwin_none {R : Ty → Ty → Prop} {o : Option Ty} (h : OptTwin R none o) : o = none := by
  cases o with
  | none => rfl
  | some t' => cases h

section
variable {we re we' re' : Env} {W R : Ty → Ty → Prop} (hw : Bisim we we' W) (hr : Bisim re re' R)
include hw hr

theorem records_twin {q q' : QName} {wfs rfs : List Field} (h : Records we re q q' wfs rfs) {w' r' : Ty} (h1 : W (.ref q) w')
    (h2 : R (.ref q') r') : ∃ p p' wfs' rfs', w' = .ref p ∧ r' = .ref p' ∧ Records we' re' p p' wfs' rfs' ∧
      Each (FieldTwin W) wfs wfs' ∧ Each (FieldTwin R) rfs rfs' := by
  obtain ⟨⟨wd, a1, a3⟩, rd, a2, a4⟩ := h
  obtain ⟨p, d, d', rfl, b1, b2, b3, b4, b5⟩ := twin_ref hw h1
  obtain ⟨p', c, c', rfl, c1, c2, c3, c4, c5⟩ := twin_ref hr h2
  rw [a1] at b1; cases b1
  rw [a2] at c1; cases c1
  rw [a3] at b5; rw [a4] at c5
  generalize hk1 : d'.kind = k1 at b5
  generalize hk2 : c'.kind = k2 at c5
  cases b5 with
  | record b6 =>
    cases c5 with
    | record c6 => exact ⟨p, p', _, _, rfl, rfl, ⟨⟨_, b2, hk1⟩, ⟨_, c2, hk2⟩⟩, b6, c6⟩

theorem refused_twin {lax : Bool} {w : Ty} {r : Option Ty} (h : Refused lax we re w r) : ∀ {w' r'}, W w w' → OptTwin R r r' →
    Refused lax we' re' w' r' := by
  induction h with
  | noMember a1 a2 =>
    intro w' r' h1 h2
    obtain ⟨x, rfl, h2⟩ := optTwin_some h2
    obtain ⟨rs', rfl, h3⟩ := twin_union hr h2
    refine .noMember (twin_not_union hw h1 a1) fun t ht hc => ?_
    obtain ⟨u, h4, h5⟩ := each_mem_right h3 ht
    exact a2 u h4 ((canRead_twin_iff hw hr h1 h5).2 hc)
  | member a1 a2 _ ih =>
    intro w' r' h1 h2
    obtain ⟨x, rfl, h2⟩ := optTwin_some h2
    obtain ⟨rs', rfl, h3⟩ := twin_union hr h2
    obtain ⟨t', h4, h5⟩ := first_twin (P' := CanRead we' re' w') (fun t t' ht => canRead_twin_iff hw hr h1 ht) h3 a2
    exact .member (twin_not_union hw h1 a1) h4 (ih h1 h5)
  | array a1 a2 =>
    intro w' r' h1 h2
    obtain ⟨x, rfl, h2⟩ := optTwin_some h2
    obtain ⟨u, rfl, h3⟩ := twin_array hw h1
    exact .array (twin_not_array hr h2 a1) (twin_not_union hr h2 a2)
  | item _ ih =>
    intro w' r' h1 h2
    obtain ⟨x, rfl, h2⟩ := optTwin_some h2
    obtain ⟨u, rfl, h3⟩ := twin_array hw h1
    obtain ⟨v, rfl, h4⟩ := twin_array hr h2
    exact .item (ih h3 h4)
  | itemSkipped _ ih =>
    intro w' r' h1 h2
    cases optTwin_none h2
    obtain ⟨u, rfl, h3⟩ := twin_array hw h1
    exact .itemSkipped (ih h3 h2)
  | map a1 a2 =>
    intro w' r' h1 h2
    obtain ⟨x, rfl, h2⟩ := optTwin_some h2
    obtain ⟨u, rfl, h3⟩ := twin_map hw h1
    exact .map (twin_not_map hr h2 a1) (twin_not_union hr h2 a2)
  | value _ ih =>
    intro w' r' h1 h2
    obtain ⟨x, rfl, h2⟩ := optTwin_some h2
    obtain ⟨u, rfl, h3⟩ := twin_map hw h1
    obtain ⟨v, rfl, h4⟩ := twin_map hr h2
    exact .value (ih h3 h4)
  | valueSkipped _ ih =>
    intro w' r' h1 h2
    cases optTwin_none h2
    obtain ⟨u, rfl, h3⟩ := twin_map hw h1
    exact .valueSkipped (ih h3 h2)
  | ref a1 a2 =>
    intro w' r' h1 h2
    obtain ⟨x, rfl, h2⟩ := optTwin_some h2
    obtain ⟨p, -, -, rfl, -⟩ := twin_ref hw h1
    exact .ref (twin_not_ref hr h2 a1) (twin_not_union hr h2 a2)
  | unknown a1 a2 =>
    intro w' r' h1 h2
    obtain ⟨p, d, -, rfl, b1, -⟩ := twin_ref hw h1
    rw [a1] at b1; cases b1
  | unknownReader a1 =>
    intro w' r' h1 h2
    obtain ⟨x, rfl, h2⟩ := optTwin_some h2
    obtain ⟨p, d, -, rfl, b1, -⟩ := twin_ref hr h2
    rw [a1] at b1; cases b1
  | @names q q' wd rd a0 a1 a2 a3 =>
    intro w' r' h1 h2
    obtain ⟨x, rfl, h2⟩ := optTwin_some h2
    obtain ⟨p, d, d', rfl, b1, b2, b3, b4, b5⟩ := twin_ref hw h1
    obtain ⟨p', c, c', rfl, c1, c2, c3, c4, c5⟩ := twin_ref hr h2
    rw [a1] at b1; cases b1
    rw [a2] at c1; cases c1
    refine .names a0 b2 c2 fun ⟨h3, h4⟩ => a3 ⟨?_, ?_⟩
    · unfold SameName at h3 ⊢
      rw [b3, c3, c4]
      exact h3
    · generalize d'.kind = k1 at b5 h4
      generalize c'.kind = k2 at c5 h4
      generalize wd.kind = k3 at b5 ⊢
      generalize rd.kind = k4 at c5 ⊢
      cases b5 <;> cases c5 <;> simpa [SameKind] using h4
  | @kinds q q' wd rd a1 a2 a3 =>
    intro w' r' h1 h2
    obtain ⟨x, rfl, h2⟩ := optTwin_some h2
    obtain ⟨p, d, d', rfl, b1, b2, b3, b4, b5⟩ := twin_ref hw h1
    obtain ⟨p', c, c', rfl, c1, c2, c3, c4, c5⟩ := twin_ref hr h2
    rw [a1] at b1; cases b1
    rw [a2] at c1; cases c1
    refine .kinds b2 c2 ?_
    generalize wd.kind = k3 at b5 a3
    generalize rd.kind = k4 at c5 a3
    generalize d'.kind = k1 at b5 ⊢
    generalize c'.kind = k2 at c5 ⊢
    cases b5 <;> cases c5 <;> exact a3
  | fieldType a1 a2 a3 a4 =>
    intro w' r' h1 h2
    obtain ⟨x, rfl, h2⟩ := optTwin_some h2
    obtain ⟨p, p', wfs', rfs', rfl, rfl, b1, b2, b3⟩ := records_twin hw hr a1 h1 h2
    obtain ⟨wf', c1, c2⟩ := each_mem_left b2 a2
    obtain ⟨rf', c3, c4⟩ := a3.twin b3
    rw [c2.name] at c3
    exact .fieldType b1 c1 c3 fun hc => a4 ((canRead_twin_iff hw hr c2.ty c4.ty).2 hc)
  | field a1 a2 a3 _ ih =>
    intro w' r' h1 h2
    obtain ⟨x, rfl, h2⟩ := optTwin_some h2
    obtain ⟨p, p', wfs', rfs', rfl, rfl, b1, b2, b3⟩ := records_twin hw hr a1 h1 h2
    obtain ⟨wf', c1, c2⟩ := each_mem_left b2 a2
    obtain ⟨rf', c3, c4⟩ := a3.twin b3
    rw [c2.name] at c3
    exact .field b1 c1 c3 (ih c2.ty c4.ty)
  | fieldDropped a1 a2 a3 _ ih =>
    intro w' r' h1 h2
    obtain ⟨x, rfl, h2⟩ := optTwin_some h2
    obtain ⟨p, p', wfs', rfs', rfl, rfl, b1, b2, b3⟩ := records_twin hw hr a1 h1 h2
    obtain ⟨wf', c1, c2⟩ := each_mem_left b2 a2
    refine .fieldDropped b1 c1 (fun rf hrf hn => ?_) (ih c2.ty (r' := none) trivial)
    obtain ⟨g, c3, c4⟩ := each_mem_right b3 hrf
    exact a3 g c3 ((answers_twin c4 _).2 (by rw [c2.name]; exact hn))
  | fieldSkipped a1 a2 a3 _ ih =>
    intro w' r' h1 h2
    cases optTwin_none h2
    obtain ⟨p, d, d', rfl, b1, b2, b3, b4, b5⟩ := twin_ref hw h1
    rw [a1] at b1; cases b1
    rw [a2] at b5
    generalize hk1 : d'.kind = k1 at b5
    cases b5 with
    | record b6 =>
      obtain ⟨wf', c1, c2⟩ := each_mem_left b6 a3
      exact .fieldSkipped b2 hk1 c1 (ih c2.ty h2)
  | @noDefault q q' wfs rfs j rf a1 a2 a3 a4 =>
    intro w' r' h1 h2
    obtain ⟨x, rfl, h2⟩ := optTwin_some h2
    obtain ⟨p, p', wfs', rfs', rfl, rfl, b1, b2, b3⟩ := records_twin hw hr a1 h1 h2
    rcases each_get b3 j with ⟨h4, -⟩ | ⟨a, b, h4, h5, h6⟩
    · rw [a2] at h4; cases h4
    · rw [a2] at h4; cases h4
      refine .noDefault b1 h5 (fun wf' hwf' hn => ?_) (by rw [← h6.dflt]; exact a4)
      obtain ⟨wf, c1, c2⟩ := each_mem_right b2 hwf'
      obtain ⟨g, c3, -⟩ := Answers.twin (each_flip (R := FieldTwin R) b3 |> each_mono (S := FieldTwin fun a b => R b a)
        fun a b h => ⟨h.name.symm, h.aliases.symm, h.dflt.symm, h.ty⟩) hn
      have : g = rf := by have := c3.get; rw [a2] at this; cases this; rfl
      subst this
      exact a3 wf c1 (by rw [c2.name]; exact c3)
  | enumDefault a1 a2 a3 a4 a5 a6 a7 a8 =>
    intro w' r' h1 h2
    obtain ⟨x, rfl, h2⟩ := optTwin_some h2
    obtain ⟨p, d, d', rfl, b1, b2, b3, b4, b5⟩ := twin_ref hw h1
    obtain ⟨p', c, c', rfl, c1, c2, c3, c4, c5⟩ := twin_ref hr h2
    rw [a1] at b1; cases b1
    rw [a2] at c1; cases c1
    rw [a3] at b5; rw [a4] at c5
    generalize hk1 : d'.kind = k1 at b5
    generalize hk2 : c'.kind = k2 at c5
    cases b5
    cases c5
    exact .enumDefault b2 c2 hk1 hk2 a5 a6 a7 a8
  | ofUnion a1 a2 a3 _ ih =>
    intro w' r' h1 h2
    obtain ⟨x, rfl, h2⟩ := optTwin_some h2
    obtain ⟨ts', rfl, h3⟩ := twin_union hw h1
    obtain ⟨rs', rfl, h4⟩ := twin_union hr h2
    obtain ⟨t', h5, h6⟩ := each_mem_left h3 a1
    have hne : t' ≠ .null := fun h => a2 ((twin_null hw h6).2 h)
    have hpick : ∀ {t rs j r}, Picks we re t rs j r → ∀ {t' rs'}, W t t' → Each R rs rs' → ∃ r', Picks we' re' t' rs' j r' ∧ R r r' := by
      intro t rs j r hp t' rs' ht hrs
      have hname : ∀ u u', R u u' → (SameTypeName we re t u ↔ SameTypeName we' re' t' u') := fun u u' hu => by
        unfold SameTypeName; rw [step_goName hr _ _ hu, step_goName hw _ _ ht]
      rcases hp with hp | ⟨hn, hp⟩
      · obtain ⟨x, h1, h2⟩ := first_twin hname hrs hp
        exact ⟨x, .inl h1, h2⟩
      · obtain ⟨x, h1, h2⟩ := first_twin (P' := CanRead we' re' t') (fun u u' hu => canRead_twin_iff hw hr ht hu) hrs hp
        refine ⟨x, .inr ⟨fun u' hu' hs => ?_, h1⟩, h2⟩
        obtain ⟨u, h3, h4⟩ := each_mem_right hrs hu'
        exact hn u h3 ((hname _ _ h4).2 hs)
    obtain ⟨y, h7, h8⟩ := hpick a3 h6 h4
    exact .ofUnion h5 hne h7 (ih h6 h8)
  | ofUnionPlain a1 a2 a3 a4 _ ih =>
    intro w' r' h1 h2
    obtain ⟨x, rfl, h2⟩ := optTwin_some h2
    obtain ⟨ts', rfl, h3⟩ := twin_union hw h1
    obtain ⟨t', h5, h6⟩ := each_mem_left h3 a1
    exact .ofUnionPlain h5 (fun h => a2 ((twin_null hw h6).2 h)) (twin_not_union hr h2 a3)
      ((canRead_twin_iff hw hr h6 h2).1 a4) (ih h6 h2)
  | ofUnionSkipped a1 _ ih =>
    intro w' r' h1 h2
    cases optTwin_none h2
    obtain ⟨ts', rfl, h3⟩ := twin_union hw h1
    obtain ⟨t', h5, h6⟩ := each_mem_left h3 a1
    exact .ofUnionSkipped h5 (ih h6 h2)
end
end Verif
