import Verif.Gen.MemOps
/-
Arrays and maps in memory: appending, nil items, room, and the entries of a map.
-/
namespace Verif
set_option linter.unusedSimpArgs false
set_option linter.unusedVariables false

/-- The slice `s` has the `n` items `items`; its array, if it has one, is `A`. -/
def SliceIs (h : Mem) (s : Var) (n : Nat) (items : List Var) (A : List Nat) : Prop :=
  (s = .nil ∧ n = 0 ∧ items = [] ∧ A = []) ∨
  ∃ a cs, s = .slice a n ∧ h[a]? = some (.var (.struct 0 cs)) ∧ items = cs.take n ∧ items.length = n ∧ A = [a]

theorem SliceIs.frame {h h' : Mem} {s : Var} {n : Nat} {items : List Var} {A : List Nat} (hs : SliceIs h s n items A)
    (hf : ∀ a ∈ A, h'[a]? = h[a]?) : SliceIs h' s n items A := by
  rcases hs with hs | ⟨a, cs, e1, e2, e3, e4, rfl⟩
  · exact .inl hs
  · exact .inr ⟨a, cs, e1, by rw [hf a (by simp), e2], e3, e4, rfl⟩

theorem SliceIs.lt {h : Mem} {s : Var} {n : Nat} {items : List Var} {A : List Nat} (hs : SliceIs h s n items A) :
    ∀ a ∈ A, a < h.length := by
  rcases hs with ⟨_, _, _, rfl⟩ | ⟨a, cs, e1, e2, e3, e4, rfl⟩
  · intro a ha; cases ha
  · intro b hb
    simp only [List.mem_cons, List.not_mem_nil, or_false] at hb
    subst hb
    exact (List.getElem?_eq_some_iff.mp e2).1

/-- `append`. -/
theorem append_sim {grow : Nat → Nat} {h : Mem} {s v : Var} {n : Nat} {items : List Var} {A : List Nat} (hs : SliceIs h s n items A) :
    ∃ b cs h2, memAppend grow s v h = some (.slice b (n + 1), ⟨b, [n]⟩, h2) ∧ h2[b]? = some (.var (.struct 0 cs)) ∧
      cs.take n = items ∧ cs[n]? = some v ∧ (b ∈ A ∨ b = h.length) ∧ h.length ≤ h2.length ∧
      ∀ x, x < h.length → x ∉ A → h2[x]? = h[x]? := by
  rcases hs with ⟨rfl, rfl, rfl, rfl⟩ | ⟨a, cs, rfl, hcs, rfl, hlen, rfl⟩
  · exact ⟨_, _, _, rfl, Mem.get_new, rfl, rfl, .inr rfl, by simp, fun x hx _ => Mem.get_append hx⟩
  · simp only [memAppend, hcs]
    have hle : n ≤ cs.length := by simp only [List.length_take] at hlen; omega
    by_cases hn : n < cs.length
    · rw [if_pos hn]
      have halt := (List.getElem?_eq_some_iff.mp hcs).1
      refine ⟨a, cs.set n v, _, rfl, List.getElem?_set_self halt, ?_, List.getElem?_set_self hn, .inl (by simp), by simp, ?_⟩
      · rw [List.take_set_of_le (Nat.le_refl n)]
      · intro x hx hxa
        exact List.getElem?_set_ne (by simpa [eq_comm] using hxa)
    · rw [if_neg hn]
      have hnl : n = cs.length := by omega
      subst hnl
      refine ⟨_, _, _, rfl, Mem.get_new, ?_, ?_, .inr rfl, by simp, fun x hx _ => Mem.get_append hx⟩
      · simp
      · simp

/-- An item is appended to a slice and decoded into. Between the two, the slice is assigned to where it was: one
object `z` besides the array changes. -/
theorem append_sub {env : Env} {grow : Nat → Nat} {it : Ty} {h : Mem} {s : Var} {n : Nat} {items : List Var} {A : List Nat}
    (hs : SliceIs h s n items A) :
    ∃ v h1 b h2, memNew env it h = (v, h1) ∧ memAppend grow s v h1 = some (.slice b (n + 1), ⟨b, [n]⟩, h2) ∧
      (b ∈ A ∨ h.length ≤ b) ∧ h.length ≤ h2.length ∧ (∀ x, x < h.length → x ∉ A → h2[x]? = h[x]?) ∧
      ∀ h3 z, z < h.length → z ∉ A → h3.length = h2.length → (∀ x, x ≠ z → h3[x]? = h2[x]?) →
        ∃ S h4 f1, memTarget env it ⟨b, [n]⟩ h3 = .ok (S, h4) ∧ Own h4 S (Tgt.new env it none) f1 ∧ h3.length ≤ h4.length ∧
          (S.place.id ∈ A ∨ h.length ≤ S.place.id) ∧ (∀ a ∈ f1, h.length ≤ a) ∧ (∀ x, x < h.length → x ∉ A → h4[x]? = h3[x]?) ∧
          ∀ M : Nat → Prop, (∀ x, M x → x < h.length) → (∀ x ∈ A, M x) →
          ∀ h5 t f2, ChgM (Grown M h h4) S.place f1 h4 h5 → FromM (Grown M h h4) f1 f2 → Own h5 S t f2 →
            ∃ v5 fq cs5, h5[b]? = some (.var (.struct 0 cs5)) ∧ cs5.take (n + 1) = items ++ [v5] ∧ SlotShows h5 t.val v5 fq ∧ fq.Nodup ∧
              (∀ a ∈ fq, ¬ M a ∧ a ≠ b) ∧ h3.length ≤ h5.length ∧ (∀ x, M x → x ∉ A → h5[x]? = h3[x]?) ∧
              (∀ x ∈ fq, x ∈ f2 ∨ (h.length ≤ x ∧ x < h4.length)) ∧ (b ∈ A ∨ (h.length ≤ b ∧ b < h4.length)) := by
  cases hn : memNew env it h with
  | mk v h1 =>
    obtain ⟨l, f, rfl, e1, e2, e3⟩ := new_shows hn
    have hs1 : SliceIs (h ++ l) s n items A := hs.frame (fun a ha => Mem.get_append (hs.lt a ha))
    obtain ⟨b, cs, h2, a1, a2, a3, a4, a5, a6, a7⟩ := append_sim (grow := grow) (v := v) hs1
    have hb : b ∈ A ∨ h.length ≤ b := by
      rcases a5 with h | h
      · exact .inl h
      · right; rw [h]; simp
    have hbf : b ∉ f := by
      intro hm
      have := e3 b hm
      rcases a5 with h' | h'
      · have := hs.lt b h'; omega
      · omega
    have hl2 : h.length ≤ h2.length := by
      have : (h ++ l).length = h.length + l.length := by simp
      omega
    have hin : n < cs.length := (List.getElem?_eq_some_iff.mp a4).1
    refine ⟨v, _, b, h2, rfl, a1, hb, hl2, ?_, ?_⟩
    · intro x hx hxA
      rw [a7 x (by simp; omega) hxA, Mem.get_append hx]
    · intro h3 z hz hzA hl3 hsame
      have hbz : b ≠ z := by
        rintro rfl
        rcases hb with h | h
        · exact hzA h
        · omega
      have h3b : h3[b]? = some (.var (.struct 0 cs)) := by rw [hsame b hbz, a2]
      have hr : h3.read ⟨b, [n]⟩ = some v := by
        rw [Mem.read_eq (p := ⟨b, [n]⟩) h3b, Var.at_field, a4]
      have hns : NewShows env h3 none v f it := e1.frame (fun a ha => by
        have := e3 a ha
        have haz : a ≠ z := by omega
        have haA : a ∉ A := fun hm => by have := hs.lt a hm; omega
        rw [hsame a haz, a7 a this.2 haA])
      obtain ⟨S, h4, f1, fq, t1, t2, t3, t4, t5⟩ := target_sim hns hr hbf e2
      have hfq : ∀ x ∈ fq, h.length ≤ x := fun x hx => by
        rcases t5 x hx with h' | h'
        · exact (e3 x h').1
        · omega
      refine ⟨S, h4, f1, t1, t2, t4.grows, ?_, ?_, ?_, ?_⟩
      · rcases t3 with ⟨hp, _⟩ | ⟨a, ts, rfl, _, _, _, rfl⟩
        · rw [hp]; exact hb
        · exact .inr (hfq a (by simp))
      · rcases t3 with ⟨_, rfl⟩ | ⟨a, ts, rfl, _, _, _, rfl⟩
        · exact hfq
        · exact fun x hx => hfq x (by simp [hx])
      · intro y hy hyA
        refine t4.same y (by omega) (fun hm => by have := e3 y hm; omega) ?_
        intro he
        have he' : y = b := he
        subst he'
        rcases hb with h | h
        · exact hyA h
        · omega
      intro M hM hMA h5 t f2 hc hf ho
      have hblt : b < h3.length := (List.getElem?_eq_some_iff.mp h3b).1
      have hg34 := t4.grows
      have hM3 : ∀ x, Grown M h h3 x → x < h3.length := fun x hx => by
        rcases hx with hx | hx
        · have := hM x hx; omega
        · exact hx.2
      have hM34 : ∀ x, Grown M h h3 x → Grown M h h4 x := fun x hx => hx.imp id (fun hx => ⟨hx.1, by omega⟩)
      have hMb : Grown M h h4 b := by
        rcases hb with hb | hb
        · exact .inl (hMA b hb)
        · exact .inr ⟨hb, by omega⟩
      obtain ⟨v5, fq5, c1, c2, c3, c4, c5, c6, c7⟩ := t3.closeM (M := Grown M h h4) hMb t2 hc hf ho
      have hc35 : ChgM (Grown M h h3) ⟨b, [n]⟩ f h3 h5 := (t4.toM hM3).trans hM34 c6 (t5.toM hM3)
      have hf35 : FromM (Grown M h h3) f fq5 := FromM.trans hM34 (t5.toM hM3) c5
      obtain ⟨o, x, u, o1, o2, o3⟩ := hc35.here
      have o1' : h3[b]? = some (.var o) := o1
      rw [h3b] at o1'
      simp only [Option.some.injEq, MObj.var.injEq] at o1'
      subst o1'
      have hx : x = v5 := by
        rw [Mem.read_eq o3, Var.at_put_self o2] at c1
        exact Option.some.inj c1
      subst hx
      have o3' : h5[b]? = some (.var ((Var.struct 0 cs).put [n] x)) := o3
      rw [Var.put_field] at o3'
      refine ⟨x, fq5, cs.set n x, o3', ?_, c2, c3, ?_, hc35.grows, ?_, fun y hy => (c7 y hy).imp id (fun h => ⟨hfq y h, t3.lt t2 y h⟩),
        hb.imp id (fun h => ⟨h, by omega⟩)⟩
      · rw [List.take_add_one, List.take_set_of_le (Nat.le_refl n), a3, List.getElem?_set_self hin]
        rfl
      · intro a ha
        refine ⟨?_, fun he => c4 (show b ∈ fq5 from he ▸ ha)⟩
        rcases hf35 a ha with h' | h'
        · intro hm
          have := (e3 a h').1
          have := hM a hm
          omega
        · exact fun hm => h' (.inl hm)
      · intro y hy hyA
        have hyl := hM y hy
        refine hc35.same y (.inl hy) (fun hm => by have := e3 y hm; omega) ?_
        intro he
        have he' : y = b := he
        subst he'
        rcases hb with h | h
        · exact hyA h
        · omega

/-- `AppendArray`. -/
theorem appendArray_sim {env : Env} {grow : Nat → Nat} {h : Mem} {P : MTgt} {t : Tgt} {fp : List Nat} (ho : Own h P t fp) :
    SubSim h P fp (fun s => genPutArray t s) (genAppendArray env t) (memAppendArray env grow (P, h)) := by
  cases P with
  | leaf l p => obtain ⟨_, _, rfl, _⟩ := ho.owns; exact rfl
  | map i p w => obtain ⟨_, _, _, _, _, _, _, _, _, rfl, _⟩ := ho.owns; exact rfl
  | union ts p => obtain ⟨_, _, _, _, rfl, _⟩ := ho.owns; exact rfl
  | record fs p => obtain ⟨_, _, _, rfl, _⟩ := ho.owns; exact rfl
  | bad p => obtain ⟨rfl, _⟩ := ho.owns; exact rfl
  | array it p =>
    obtain ⟨⟨items, a, cs, fps, rfl, hr, hcs, hs, rfl⟩, hn, ha⟩ := ho
    have hsl : SliceIs h (.slice a items.length) items.length (cs.take items.length) [a] :=
      .inr ⟨a, cs, rfl, hcs, rfl, hs.length, rfl⟩
    obtain ⟨v, h1, b, h2, e1, e2, e3, e4, e5, e6⟩ := append_sub (env := env) (grow := grow) (it := it) hsl
    have hplt := Mem.read_lt hr
    have halt := (List.getElem?_eq_some_iff.mp hcs).1
    simp only [List.nodup_cons] at hn
    simp only [MTgt.place, List.mem_cons, not_or] at ha
    have hr2 : h2.read p = some (.slice a items.length) := by
      rw [Mem.read_congr (e5 p.id hplt (by simp [ha.1])), hr]
    have e6' := e6 (h2.write p (.slice b (items.length + 1))) p.id hplt (by simp [ha.1]) Mem.write_length (fun x hx => Mem.write_other hx)
    obtain ⟨S, h4, f1, r1, r2, g1, g2, g3, g4, r3⟩ := e6'
    have hr1 : h1.read p = some (.slice a items.length) := by
      obtain ⟨l, f0, rfl, -⟩ := new_shows e1
      rw [Mem.read_append hplt, hr]
    simp only [genAppendArray, memAppendArray, hr1, e1, e2, Mem.read_write hr2, r1]
    refine ⟨f1, r2, ?_, ?_, fun x hx => .inr (g3 x hx), ?_, ?_⟩
    · rw [Mem.write_length] at g1
      exact Nat.le_trans e4 g1
    · rcases g2 with g2 | g2
      · simp only [List.mem_cons, List.not_mem_nil, or_false] at g2
        exact .inr (.inl (by simp [g2]))
      · exact .inr (.inr g2)
    · intro x hx hxf hxp
      simp only [List.mem_cons, not_or] at hxf
      rw [g4 x hx (by simpa using hxf.1), Mem.write_other (p := p) hxp, e5 x hx (by simpa using hxf.1)]
    intro M hM hMp hMfp h5 t f2 c1 c2 c3
    obtain ⟨v5, fq, cs5, k1, k2, k3, k4, k5, k6, k7, k8, k9⟩ := r3 M hM (fun x hx => hMfp x (by
      simp only [List.mem_cons, List.not_mem_nil, or_false] at hx
      simp [hx])) h5 t f2 c1 c2 c3
    have hsame : ∀ x, M x → x ≠ a → x ≠ p.id → h5[x]? = h[x]? := by
      intro x hx hxa hxp
      rw [k7 x hx (by simpa using hxa), Mem.write_other hxp, e5 x (hM x hx) (by simpa using hxa)]
    have hfps := hs.lt
    have hbfps : b ∉ fps := by
      intro hm
      rcases e3 with h' | h'
      · simp only [List.mem_cons, List.not_mem_nil, or_false] at h'; subst h'; exact hn.1 hm
      · have := hfps b hm; omega
    have h5p : h5[p.id]? = (h2.write p (.slice b (items.length + 1)))[p.id]? := k7 p.id hMp (by simp [ha.1])
    have hbp : b ≠ p.id := by
      intro he
      rcases e3 with h' | h'
      · simp only [List.mem_cons, List.not_mem_nil, or_false] at h'; exact ha.1 (by rw [← he, h'])
      · omega
    have hs5 : SlotsShow h5 items (cs.take items.length) fps := hs.frame (fun x hx =>
      hsame x (hMfp x (by simp [hx])) (fun he => hn.1 (he ▸ hx)) (fun he => ha.2 (he ▸ hx)))
    refine ⟨b :: (fps ++ fq), ⟨⟨items ++ [t.val], b, cs5, fps ++ fq, rfl, ?_, k1, ?_, rfl⟩, ?_, ?_⟩, ⟨?_, ?_, ?_⟩, ?_, ?_⟩
    · rw [Mem.read_congr h5p, Mem.read_write hr2]; simp
    · simp only [List.length_append, List.length_cons, List.length_nil, Nat.zero_add]
      rw [k2]
      exact SlotsShow.snoc k3 hs5
    · refine List.nodup_cons.mpr ⟨?_, List.nodup_append.mpr ⟨hn.2, k4, ?_⟩⟩
      · simp only [List.mem_append, not_or]
        exact ⟨hbfps, fun hm => (k5 b hm).2 rfl⟩
      · rintro x hx y hy rfl
        exact (k5 x hy).1 (hMfp x (by simp [hx]))
    · simp only [MTgt.place, List.mem_cons, List.mem_append, not_or]
      refine ⟨Ne.symm hbp, ha.2, fun hm => ?_⟩
      exact (k5 _ hm).1 hMp
    · rw [Mem.write_length] at k6
      exact Nat.le_trans e4 k6
    · intro x hx hxf hxp
      simp only [List.mem_cons, not_or] at hxf
      exact hsame x hx hxf.1 hxp
    · obtain ⟨o, ho, hv⟩ := Mem.read_of hr
      refine ⟨o, .slice b (items.length + 1), _, ho, hv, ?_⟩
      have ho2 : h2[p.id]? = some (.var o) := by rw [e5 p.id hplt (by simp [ha.1]), ho]
      simp only [MTgt.place]
      rw [h5p]
      exact Mem.write_self ho2
    · intro x hx
      simp only [List.mem_cons, List.mem_append] at hx ⊢
      rcases hx with rfl | hx | hx
      · rcases e3 with h' | h'
        · simp only [List.mem_cons, List.not_mem_nil, or_false] at h'; exact .inl (.inl h')
        · exact .inr (fun hm => by have := hM _ hm; omega)
      · exact .inl (.inr hx)
      · exact .inr (k5 x hx).1
    · intro x hx
      simp only [List.mem_cons, List.mem_append] at hx
      rcases hx with rfl | hx | hx
      · rcases k9 with h' | h'
        · simp only [List.mem_cons, List.not_mem_nil, or_false] at h'
          exact .inr (.inl (hMfp x (by simp [h'])))
        · exact .inr (.inr h')
      · exact .inr (.inl (hMfp x (by simp [hx])))
      · exact (k8 x hx).imp id .inr

theorem ValsShow.slice {h : Mem} {U : List Item} {pend : List (List Byte × Option Val)} {vals : Var} {fv : List Nat}
    (hv : ValsShow h U pend vals fv) : ∃ vs, SliceIs h vals pend.length vs fv ∧ PendIn U pend vs := by
  rcases hv with ⟨rfl, rfl, rfl⟩ | ⟨b, cs, rfl, e1, e2, rfl⟩
  · exact ⟨[], .inl ⟨rfl, rfl, rfl, rfl⟩, rfl⟩
  · exact ⟨_, .inr ⟨b, cs, rfl, e1, rfl, e2.length, rfl⟩, e2⟩

theorem objs_snoc {U : List Item} {u : Item} : objs (U ++ [u]) = objs U ++ u.2.2.2 := by
  simp [objs, List.flatMap_append]

theorem mem_objs {U : List Item} {u : Item} (hu : u ∈ U) {a : Nat} (ha : a ∈ u.2.2.2) : a ∈ objs U :=
  List.mem_flatMap.mpr ⟨u, hu, ha⟩

theorem objs_lt {h : Mem} {U : List Item} (hU : ∀ u ∈ U, SlotShows h u.2.1 u.2.2.1 u.2.2.2) : ∀ a ∈ objs U, a < h.length := by
  intro a ha
  obtain ⟨u, hu, hau⟩ := List.mem_flatMap.mp ha
  exact (hU u hu).lt a hau

/-- `AppendMap`. -/
theorem appendMap_sim {env : Env} {grow : Nat → Nat} {h : Mem} {P : MTgt} {t : Tgt} {fp : List Nat} (ho : Own h P t fp) (k : List Byte) :
    SubSim h P fp (fun s => genPutMap t k s) (genAppendMap env t k) (memAppendMap env grow (P, h) k) := by
  cases P with
  | leaf l p => obtain ⟨_, _, rfl, _⟩ := ho.owns; exact rfl
  | array i p => obtain ⟨_, _, _, _, rfl, _⟩ := ho.owns; exact rfl
  | union ts p => obtain ⟨_, _, _, _, rfl, _⟩ := ho.owns; exact rfl
  | record fs p => obtain ⟨_, _, _, rfl, _⟩ := ho.owns; exact rfl
  | bad p => obtain ⟨rfl, _⟩ := ho.owns; exact rfl
  | map it p w =>
    obtain ⟨⟨hinted, pend, cur, a, es, keys, vals, U, fv, rfl, hr, hes, hw, hk, hkk, hvs, hU, hcur, rfl⟩, hn, ha⟩ := ho
    obtain ⟨vs, hsl, hpend⟩ := hvs.slice
    obtain ⟨v, h1, b, h2, e1, e2, e3, e4, e5, e6⟩ := append_sub (env := env) (grow := grow) (it := it) hsl
    have hplt := Mem.read_lt hr
    have halt := (List.getElem?_eq_some_iff.mp hes).1
    have hwlt := (List.getElem?_eq_some_iff.mp hw).1
    have hfv := hsl.lt
    have hol := objs_lt hU
    simp only [List.nodup_cons, List.mem_cons, List.mem_append, not_or, List.nodup_append] at hn
    obtain ⟨⟨haw, hafv, hao⟩, ⟨hwfv, hwo⟩, hnfv, hno, hdis⟩ := hn
    simp only [MTgt.place, List.mem_cons, List.mem_append, not_or] at ha
    obtain ⟨hpa, hpw, hpfv, hpo⟩ := ha
    have hw2 : w < h2.length := by omega
    obtain ⟨S, h4, f1, r1, r2, g1, g2, g3, g4, r3⟩ := e6 (h2.set w (.wrapper (some (keys.getD [] ++ [k])) (.slice b (pend.length + 1)))) w hwlt hwfv
      (by simp) (fun x hx => List.getElem?_set_ne (Ne.symm hx))
    simp only [genAppendMap, memAppendMap, hw, e1, e2, r1]
    refine ⟨f1, r2, ?_, ?_, fun x hx => .inr (g3 x hx), ?_, ?_⟩
    · simp only [List.length_set] at g1
      omega
    · rcases g2 with g2 | g2
      · exact .inr (.inl (by simp [g2]))
      · exact .inr (.inr g2)
    · intro x hx hxf hxp
      simp only [List.mem_cons, List.mem_append, not_or] at hxf
      rw [g4 x hx hxf.2.2.1, List.getElem?_set_ne (Ne.symm hxf.2.1), e5 x hx hxf.2.2.1]
    intro M hM hMp hMfp h5 t f2 c1 c2 c3
    have hMa : M a := hMfp a (by simp)
    have hMw : M w := hMfp w (by simp)
    have hMo : ∀ x ∈ objs U, M x := fun x hx => hMfp x (by simp [hx])
    obtain ⟨v5, fq, cs5, k1, k2, k3, k4, k5, k6, k7, k8, k9⟩ := r3 M hM (fun x hx => hMfp x (by simp [hx])) h5 t f2 c1 c2 c3
    have hsame : ∀ x, M x → x ∉ fv → x ≠ w → h5[x]? = h[x]? := by
      intro x hx hxa hxw
      rw [k7 x hx hxa, List.getElem?_set_ne (Ne.symm hxw), e5 x (hM x hx) hxa]
    have h5w : h5[w]? = some (.wrapper (some (keys.getD [] ++ [k])) (.slice b (pend.length + 1))) := by
      rw [k7 w hMw hwfv, List.getElem?_set_self hw2]
    have hb : b ∈ fv ∨ h.length ≤ b := e3
    have hbo : b ∉ objs U := fun hm => by
      rcases hb with h' | h'
      · exact hdis b h' b hm rfl
      · have := hol b hm; omega
    have hba : b ≠ a := fun he => by
      rcases hb with h' | h'
      · exact hafv (he ▸ h')
      · omega
    have hbw : b ≠ w := fun he => by
      rcases hb with h' | h'
      · exact hwfv (he ▸ h')
      · omega
    have hbp : b ≠ p.id := fun he => by
      rcases hb with h' | h'
      · exact hpfv (he ▸ h')
      · omega
    have hfq : ∀ x ∈ fq, ¬ M x := fun x hx => (k5 x hx).1
    refine ⟨a :: w :: ([b] ++ objs (U ++ [(k, t.val, v5, fq)])), ⟨⟨true, pend ++ [(k, t.val)], cur, a, es,
        some (keys.getD [] ++ [k]), .slice b (pend.length + 1), U ++ [(k, t.val, v5, fq)], [b], rfl, ?_, ?_, h5w, rfl, ?_, ?_, ?_, ?_, rfl⟩, ?_, ?_⟩,
        ⟨?_, ?_, ?_⟩, ?_, ?_⟩
    · rw [Mem.read_congr (hsame p.id hMp hpfv hpw), hr]
    · rw [hsame a hMa hafv haw, hes]
    · simp [hkk]
    · refine .inr ⟨b, cs5, by simp, k1, ?_, rfl⟩
      simp only [List.length_append, List.length_cons, List.length_nil, Nat.zero_add]
      rw [k2]
      exact PendIn.snoc ⟨fq, by simp⟩ (hpend.more (fun u hu => by simp [hu]))
    · intro u hu
      rcases List.mem_append.mp hu with hu | hu
      · exact (hU u hu).frame (fun x hx => by
          have hxo := mem_objs hu hx
          exact hsame x (hMo x hxo) (fun hm => hdis x hm x hxo rfl) (fun he => hwo (he ▸ hxo)))
      · simp only [List.mem_cons, List.not_mem_nil, or_false] at hu
        subst hu
        exact k3
    · intro m hm
      exact ⟨(hcur m hm).1.more (fun u hu => by simp [hu]), (hcur m hm).2⟩
    · rw [objs_snoc]
      simp only [List.nodup_cons, List.mem_cons, List.mem_append, not_or, List.nodup_append, List.cons_append, List.nil_append]
      refine ⟨⟨haw, Ne.symm hba, hao, fun hm => hfq a hm hMa⟩,
        ⟨Ne.symm hbw, hwo, fun hm => hfq w hm hMw⟩, ⟨hbo, fun hm => (k5 b hm).2 rfl⟩, hno, k4, ?_⟩
      rintro x hx y hy rfl
      exact hfq x hy (hMo x hx)
    · rw [objs_snoc]
      simp only [MTgt.place, List.mem_cons, List.mem_append, not_or, List.not_mem_nil, or_false, not_false_eq_true]
      exact ⟨hpa, hpw, Ne.symm hbp, hpo, fun hm => hfq _ hm hMp⟩
    · simp only [List.length_set] at k6
      omega
    · intro x hx hxf hxp
      simp only [List.mem_cons, List.mem_append, not_or] at hxf
      exact hsame x hx hxf.2.2.1 hxf.2.1
    · obtain ⟨o, ho, hv⟩ := Mem.read_of hr
      refine ⟨o, .map a, .map a, ho, hv, ?_⟩
      simp only [MTgt.place]
      rw [Var.put_at hv]
      rw [hsame p.id hMp hpfv hpw, ho]
    · rw [objs_snoc]
      intro x hx
      simp only [List.mem_cons, List.mem_append, List.not_mem_nil, or_false] at hx ⊢
      rcases hx with h' | h' | h' | h' | h'
      · exact .inl (.inl h')
      · exact .inl (.inr (.inl h'))
      · subst h'
        rcases hb with h'' | h''
        · exact .inl (.inr (.inr (.inl h'')))
        · exact .inr (fun hm => by have := hM _ hm; omega)
      · exact .inl (.inr (.inr (.inr h')))
      · exact .inr (hfq x h')
    · rw [objs_snoc]
      intro x hx
      simp only [List.mem_cons, List.mem_append, List.not_mem_nil, or_false] at hx
      rcases hx with h' | h' | h' | h' | h'
      · exact .inr (.inl (h' ▸ hMa))
      · exact .inr (.inl (h' ▸ hMw))
      · subst h'
        exact .inr (k9.imp (fun h => hMfp x (by simp [h])) id)
      · exact .inr (.inl (hMo x h'))
      · exact (k8 x h').imp id .inr
end Verif
