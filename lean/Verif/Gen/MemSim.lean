import Verif.Gen.MemApp
import Verif.VM.Eval
/-
Decoding into memory goes as decoding into the targets of Gen/Target.lean does.
-/
namespace Verif
set_option linter.unusedSimpArgs false
set_option linter.unusedVariables false

theorem dropLast_snoc {α : Type} (l : List α) (x : α) (hl : l ≠ []) : l.dropLast ++ [x] = l.set (l.length - 1) x := by
  have h1 := List.dropLast_concat_getLast hl
  have h2 : l.length - 1 = l.dropLast.length := by simp
  have h3 : (l.dropLast ++ [l.getLast hl]).set l.dropLast.length x = l.dropLast ++ [x] := by
    rw [List.set_append_right _ _ (Nat.le_refl _)]; simp
  rw [h1] at h3
  rw [h2, h3]

/-- `NullField`. -/
theorem nullField_sim {h : Mem} {P : MTgt} {t : Tgt} {fp : List Nat} (ho : Own h P t fp) (i : Int) :
    Follows h P fp (genNullField t i) (memNullField (P, h) i) := by
  cases P with
  | leaf l p => obtain ⟨_, _, rfl, _⟩ := ho.owns; exact rfl
  | union ts p => obtain ⟨_, _, _, _, rfl, _⟩ := ho.owns; exact rfl
  | bad p => obtain ⟨rfl, _⟩ := ho.owns; exact rfl
  | record fs p =>
    obtain ⟨⟨slots, tag, vs, rfl, hr, hs, hlen⟩, hn, ha⟩ := ho
    simp only [genNullField, memNullField]
    by_cases hneg : i < 0
    · rw [if_pos hneg, if_pos hneg]; exact rfl
    · rw [if_neg hneg, if_neg hneg]
      cases hf : fs[i.toNat]? with
      | none => exact rfl
      | some f =>
        simp only
        have hi : i.toNat < slots.length := by rw [hlen]; exact (List.getElem?_eq_some_iff.mp hf).1
        by_cases hd : f.ty.nullable = true
        · rw [if_pos hd, if_pos hd]
          obtain ⟨fp', r1, r2, r3, r4, r5, r6⟩ := struct_assign (l := []) (x := .nil) (v2 := .nil) (f2 := []) hr hs hn ha hi
            (by simp [VarShows]) (by simp) (by simp)
          simp only [List.append_nil] at r1 r2 r6
          exact ⟨rfl, fp', ⟨⟨_, tag, _, rfl, r1, r2, by simp [hlen]⟩, r3, r4⟩, r6, r5⟩
        · rw [if_neg hd, if_neg hd]; exact rfl
  | array it p =>
    obtain ⟨⟨items, a, cs, fps, rfl, hr, hcs, hs, rfl⟩, hn, ha⟩ := ho
    simp only [genNullField, memNullField]
    by_cases hd : it.nullable = true
    · rw [if_pos hd, hr]
      cases hlen : items.length with
      | zero =>
        have : items = [] := List.length_eq_zero_iff.mp hlen
        rw [if_neg (by simp [this])]
        exact rfl
      | succ n =>
        have hne : items ≠ [] := fun he => by rw [he] at hlen; cases hlen
        rw [if_pos ⟨hd, hne⟩, dropLast_snoc _ _ hne, hlen]
        simp only [memNilLast, Nat.add_sub_cancel]
        rw [hlen] at hs
        have hcl : n + 1 ≤ cs.length := by
          have := hs.length
          simp only [List.length_take] at this
          omega
        simp only [List.nodup_cons] at hn
        simp only [MTgt.place, List.mem_cons, not_or] at ha
        obtain ⟨v, f, g, e1, e2, e3, e4⟩ := hs.focus (i := n) (by omega)
        have hra : h.read ⟨a, [n]⟩ = some v := by
          rw [Mem.read_eq (p := ⟨a, [n]⟩) hcs, Var.at_field]
          rw [List.getElem?_take_of_lt (Nat.lt_succ_self n)] at e1
          exact e1
        have hwa : (h.write ⟨a, [n]⟩ .nil)[a]? = some (.var (.struct 0 (cs.set n .nil))) := by
          rw [Mem.write_self (p := ⟨a, [n]⟩) hcs, Var.put_field]
        have hga : ∀ b ∈ g, b ≠ a := fun b hb he => hn.1 (he ▸ e3.mem_iff.mpr (List.mem_append_right _ hb))
        obtain ⟨fp', r1, r2⟩ := e4 (h.write ⟨a, [n]⟩ .nil) (some .nil) .nil [] (fun b hb => Mem.write_other (hga b hb)) (by simp [SlotShows, VarShows])
        have hsub : ∀ b ∈ fp', b ∈ fps := fun b hb => e3.mem_iff.mpr (List.mem_append_right _ (by simpa using r2.mem_iff.mp hb))
        have hnd' : fp'.Nodup := r2.nodup_iff.mpr (by simpa using (List.nodup_append.mp (e3.nodup_iff.mp hn.2)).2.1)
        refine ⟨rfl, a :: fp', ⟨⟨items.set n (some .nil), a, cs.set n .nil, fp', rfl, ?_, hwa, ?_, rfl⟩, ?_, ?_⟩, ?_, ?_⟩
        · rw [Mem.read_congr (Mem.write_other ha.1), hr]
          simp
        · rw [List.length_set, hlen, List.take_set]
          exact r1
        · exact List.nodup_cons.mpr ⟨fun hm => hn.1 (hsub _ hm), hnd'⟩
        · simp only [MTgt.place, List.mem_cons, not_or]
          exact ⟨ha.1, fun hm => ha.2 (hsub _ hm)⟩
        · exact (Chg.write (q := ⟨a, [n]⟩) (fp := []) hra).own hr (by simp) ha.1 (by simp) (by simp)
        · intro b hb
          rcases List.mem_cons.mp hb with h' | h'
          · exact .inl (by simp [h'])
          · exact .inl (by simp [hsub b h'])
    · rw [if_neg hd, if_neg (fun h => hd h.1)]
      exact rfl
  | map it p w =>
    obtain ⟨⟨hinted, pend, cur, a, es, keys, vals, U, fv, rfl, hr, hes, hw, hk, hkk, hvs, hU, hcur, rfl⟩, hn, ha⟩ := ho
    simp only [genNullField, memNullField]
    by_cases hd : it.nullable = true
    · rw [if_pos hd, if_pos hd, hw]
      simp only
      rcases hvs with ⟨rfl, rfl, rfl⟩ | ⟨b, cs, rfl, hcs, hpend, rfl⟩
      · exact rfl
      · cases hlen : pend.length with
        | zero =>
          have : pend = [] := List.length_eq_zero_iff.mp hlen
          subst this
          exact rfl
        | succ n =>
          have hne : pend ≠ [] := fun he => by rw [he] at hlen; cases hlen
          obtain ⟨k, s, hlast⟩ : ∃ k s, pend.getLast? = some (k, s) :=
            ⟨(pend.getLast hne).1, (pend.getLast hne).2, List.getLast?_eq_some_getLast hne⟩
          simp only [hlast, memNilLast]
          rw [hlen] at hpend
          have hcl : n + 1 ≤ cs.length := by
            have := hpend.length
            simp only [List.length_take] at this
            omega
          simp only [List.nodup_cons, List.mem_cons, List.mem_append, not_or, List.nodup_append, List.not_mem_nil, or_false] at hn
          simp only [MTgt.place, List.mem_cons, List.mem_append, not_or, List.not_mem_nil, or_false] at ha
          have hra : ∃ v, h.read ⟨b, [n]⟩ = some v := by
            rw [Mem.read_eq (p := ⟨b, [n]⟩) hcs, Var.at_field]
            exact ⟨_, List.getElem?_eq_getElem (by omega)⟩
          obtain ⟨v, hra⟩ := hra
          have hwb : (h.write ⟨b, [n]⟩ .nil)[b]? = some (.var (.struct 0 (cs.set n .nil))) := by
            rw [Mem.write_self (p := ⟨b, [n]⟩) hcs, Var.put_field]
          have hother : ∀ x, x ≠ b → (h.write ⟨b, [n]⟩ .nil)[x]? = h[x]? := fun x hx => Mem.write_other hx
          have hob : ∀ x ∈ objs U, x ≠ b := fun x hx he => hn.2.2.2.2 b rfl b (he ▸ hx) rfl
          have hdl : pend.dropLast.length = n := by simp [hlen]
          have hkeys : (pend.dropLast ++ [(k, some Val.nil)]).map (·.1) = pend.map (·.1) := by
            conv => rhs; rw [← List.dropLast_concat_getLast hne]
            have : pend.getLast hne = (k, s) := by
              rw [List.getLast?_eq_some_getLast hne] at hlast
              exact Option.some.inj hlast
            rw [this]; simp
          have htl : (pend.dropLast ++ [(k, some Val.nil)]).length = n + 1 := by simp [hdl]
          refine ⟨rfl, a :: w :: ([b] ++ objs (U ++ [(k, some .nil, .nil, [])])), ⟨⟨hinted, _, cur, a, es, keys, .slice b (n + 1),
            U ++ [(k, some .nil, .nil, [])], [b], rfl, ?_, ?_, ?_, hk, ?_, ?_, ?_, ?_, rfl⟩, ?_, ?_⟩, ?_, ?_⟩
          · rw [Mem.read_congr (hother p.id (by simpa using ha.2.2.1)), hr]
          · rw [hother a hn.1.2.1, hes]
          · rw [hother w hn.2.1.1, hw, hlen]
          · rw [hkk, hkeys]
          · refine .inr ⟨b, cs.set n .nil, by rw [htl], hwb, ?_, rfl⟩
            rw [htl]
            have htake : (cs.set n Var.nil).take (n + 1) = (cs.take (n + 1)).dropLast ++ [.nil] := by
              rw [List.take_add_one, List.take_set_of_le (Nat.le_refl n), List.getElem?_set_self (by omega)]
              have : (cs.take (n + 1)).dropLast = cs.take n := by
                rw [List.dropLast_eq_take, List.take_take, List.length_take]
                congr 1
                omega
              rw [this]; rfl
            rw [htake]
            exact PendIn.snoc ⟨[], by simp⟩ ((hpend.dropLast).more (fun u hu => by simp [hu]))
          · intro u hu
            rcases List.mem_append.mp hu with hu | hu
            · exact (hU u hu).frame (fun x hx => hother x (hob x (mem_objs hu hx)))
            · simp only [List.mem_cons, List.not_mem_nil, or_false] at hu
              subst hu
              simp [SlotShows, VarShows]
          · intro m hm
            exact ⟨(hcur m hm).1.more (fun u hu => by simp [hu]), (hcur m hm).2⟩
          · rw [objs_snoc]
            simp only [List.append_nil, List.nodup_cons, List.mem_cons, List.mem_append, not_or, List.nodup_append, List.not_mem_nil, or_false]
            exact hn
          · rw [objs_snoc]
            simp only [MTgt.place, List.append_nil, List.mem_cons, List.mem_append, not_or, List.not_mem_nil, or_false]
            exact ha
          · exact (Chg.write (q := ⟨b, [n]⟩) (fp := []) hra).own hr (by simp) (show p.id ≠ b by simpa using ha.2.2.1) (by simp) (by simp)
          · rw [objs_snoc]
            simp only [List.append_nil]
            exact .refl
    · rw [if_neg hd, if_neg hd]
      exact rfl

/-- `HintSize`. -/
theorem hintSize_sim {lim : Nat} {h : Mem} {P : MTgt} {t : Tgt} {fp : List Nat} (ho : Own h P t fp) (c : BitVec 64) :
    Follows h P fp (genHintSize lim t c) (memHintSize lim (P, h) c) := by
  cases P with
  | leaf l p => obtain ⟨_, _, rfl, _⟩ := ho.owns; exact rfl
  | union ts p => obtain ⟨_, _, _, _, rfl, _⟩ := ho.owns; exact rfl
  | bad p => obtain ⟨rfl, _⟩ := ho.owns; exact rfl
  | record fs p => obtain ⟨_, _, _, rfl, _⟩ := ho.owns; exact rfl
  | array it p =>
    have ho' := ho
    obtain ⟨⟨items, a, cs, fps, rfl, hr, hcs, hs, rfl⟩, hn, ha⟩ := ho'
    simp only [genHintSize, memHintSize]
    cases items with
    | cons x xs =>
      rw [if_neg (by simp), hr]
      simp only [Var.len, List.length_cons]
      exact ⟨rfl, _, ho, Chg.refl hr, .refl⟩
    | nil =>
      rw [hr]
      simp only [List.length_nil, Var.len]
      by_cases hc : c.toInt < 0 ∨ (lim : Int) < c.toInt
      · rw [if_pos ⟨trivial, hc⟩, if_pos hc]; exact rfl
      · rw [if_neg (fun h => hc h.2), if_neg hc]
        have hplt := Mem.read_lt hr
        have hr1 : Mem.read (h ++ [.var (.struct 0 (List.replicate c.toInt.toNat .junk))]) p = some (.slice a 0) := by
          rw [Mem.read_append hplt, hr]; rfl
        refine ⟨rfl, [h.length], ⟨⟨[], h.length, List.replicate c.toInt.toNat .junk, [], rfl, Mem.read_write hr1, ?_, ⟨by simp, rfl⟩, rfl⟩,
          by simp, ?_⟩, ?_, ?_⟩
        · rw [Mem.write_other (by omega)]; exact Mem.get_new
        · simp only [MTgt.place, List.mem_cons, List.not_mem_nil, or_false]
          omega
        · exact (Chg.append hr).trans (Chg.write (fp := a :: fps) hr1) .refl
        · intro x hx
          simp only [List.mem_cons, List.not_mem_nil, or_false] at hx
          exact .inr (by omega)
  | map it p w =>
    have ho' := ho
    obtain ⟨⟨hinted, pend, cur, a, es, keys, vals, U, fv, rfl, hr, hes, hw, hk, hkk, hvs, hU, hcur, rfl⟩, hn, ha⟩ := ho'
    simp only [genHintSize, memHintSize]
    rw [hw]
    cases keys with
    | some ks =>
      simp only [Option.isSome_some] at hk
      subst hk
      rw [if_neg (by simp)]
      exact ⟨rfl, _, ho, Chg.refl hr, .refl⟩
    | none =>
      simp only [Option.isSome_none] at hk
      subst hk
      simp only
      by_cases hc : c.toInt < 0 ∨ (lim : Int) < c.toInt
      · rw [if_pos ⟨by trivial, hc⟩, if_pos hc]; exact rfl
      · rw [if_neg (fun h => hc h.2), if_neg hc]
        have hpend : pend = [] := List.map_eq_nil_iff.mp hkk.symm
        subst hpend
        have hplt := Mem.read_lt hr
        have halt := (List.getElem?_eq_some_iff.mp hes).1
        have hwlt := (List.getElem?_eq_some_iff.mp hw).1
        have hol := objs_lt hU
        simp only [List.nodup_cons, List.mem_cons, List.mem_append, not_or, List.nodup_append] at hn
        obtain ⟨⟨haw, hafv, hao⟩, ⟨hwfv, hwo⟩, hnfv, hno, hdis⟩ := hn
        simp only [MTgt.place, List.mem_cons, List.mem_append, not_or] at ha
        obtain ⟨hpa, hpw, hpfv, hpo⟩ := ha
        have hoth : ∀ x, x < h.length → x ≠ w → (List.set (h ++ [.var (.struct 0 (List.replicate c.toInt.toNat .junk))]) w
            (.wrapper (some []) (.slice h.length 0)))[x]? = h[x]? := by
          intro x hx hxw
          rw [List.getElem?_set_ne (Ne.symm hxw), Mem.get_append hx]
        refine ⟨rfl, a :: w :: ([h.length] ++ objs U), ⟨⟨true, [], cur, a, es, some [], .slice h.length 0, U, [h.length], rfl, ?_, ?_, ?_, rfl,
          rfl, ?_, ?_, hcur, rfl⟩, ?_, ?_⟩, ⟨?_, ?_, ?_⟩, ?_⟩
        · rw [Mem.read_congr (hoth p.id hplt hpw), hr]
        · rw [hoth a halt haw, hes]
        · exact List.getElem?_set_self (by simp; omega)
        · refine .inr ⟨h.length, List.replicate c.toInt.toNat .junk, rfl, ?_, rfl, rfl⟩
          rw [List.getElem?_set_ne (by omega)]
          exact Mem.get_new
        · intro u hu
          exact (hU u hu).frame (fun x hx => hoth x (hol x (mem_objs hu hx)) (fun he => hwo (he ▸ mem_objs hu hx)))
        · simp only [List.nodup_cons, List.mem_cons, List.mem_append, not_or, List.cons_append, List.nil_append]
          exact ⟨⟨haw, by omega, hao⟩, ⟨by omega, hwo⟩, fun hm => Nat.lt_irrefl _ (hol _ hm), hno⟩
        · simp only [MTgt.place, List.mem_cons, List.mem_append, not_or, List.not_mem_nil, or_false, not_false_eq_true]
          exact ⟨hpa, hpw, by omega, hpo⟩
        · simp
        · intro x hx hxf hxp
          simp only [List.mem_cons, not_or] at hxf
          exact hoth x hx hxf.2.1
        · obtain ⟨o, ho, hv⟩ := Mem.read_of hr
          refine ⟨o, .map a, .map a, ho, hv, ?_⟩
          simp only [MTgt.place]
          rw [Var.put_at hv, hoth p.id hplt hpw, ho]
        · intro x hx
          simp only [List.mem_cons, List.mem_append, List.not_mem_nil, or_false] at hx ⊢
          rcases hx with h' | h' | h' | h'
          · exact .inl (.inl h')
          · exact .inl (.inr (.inl h'))
          · exact .inr (by omega)
          · exact .inl (.inr (.inr (.inr h')))

/-- `Finalize`. -/
theorem finalize_sim {h : Mem} {P : MTgt} {t : Tgt} {fp : List Nat} (ho : Own h P t fp) :
    Follows h P fp (genFinalize t) (memFinalize (P, h)) := by
  have hid : Follows h P fp (.ok t) (.ok (P, h)) := by
    obtain ⟨v, hr⟩ := ho.owns.read
    exact ⟨rfl, fp, ho, Chg.refl hr, .refl⟩
  cases P with
  | leaf l p => obtain ⟨_, _, rfl, _⟩ := ho.owns; exact hid
  | union ts p => obtain ⟨_, _, _, _, rfl, _⟩ := ho.owns; exact hid
  | bad p => obtain ⟨rfl, _⟩ := ho.owns; exact hid
  | record fs p => obtain ⟨_, _, _, rfl, _⟩ := ho.owns; exact hid
  | array it p => obtain ⟨_, _, _, _, rfl, _⟩ := ho.owns; exact hid
  | map it p w =>
    obtain ⟨⟨hinted, pend, cur, a, es, keys, vals, U, fv, rfl, hr, hes, hw, hk, hkk, hvs, hU, hcur, rfl⟩, hn, ha⟩ := ho
    obtain ⟨vs, hsl, hpend⟩ := hvs.slice
    have hitems : memItems vals h = some vs := by
      rcases hsl with ⟨rfl, _, rfl, _⟩ | ⟨b, cs, rfl, hcs, rfl, _, _⟩
      · rfl
      · simp only [memItems, hcs]
    have halt := (List.getElem?_eq_some_iff.mp hes).1
    have hfv := hsl.lt
    have hn0 := hn
    have ha0 := ha
    simp only [List.nodup_cons, List.mem_cons, List.mem_append, not_or, List.nodup_append] at hn
    obtain ⟨⟨haw, hafv, hao⟩, ⟨hwfv, hwo⟩, hnfv, hno, hdis⟩ := hn
    simp only [MTgt.place, List.mem_cons, List.mem_append, not_or] at ha
    obtain ⟨hpa, hpw, hpfv, hpo⟩ := ha
    have hfin : memFinalize (.map it p w, h) = .ok (.map it p w, h.set a (.map (mapInserts es ((keys.getD []).zip vs)))) := by
      simp only [memFinalize, hw, hr, hes, hitems]
      by_cases hk0 : keys.getD [] = []
      · rw [if_pos hk0, hk0]
        simp only [List.zip_nil_left, mapInserts]
        rw [List.set_same hes]
      · have hlen : (keys.getD []).length ≤ vs.length := by
          rw [hkk, List.length_map]
          rcases hsl with ⟨-, e, rfl, -⟩ | ⟨_, _, -, -, -, e, -⟩ <;> simp only [e, List.length_nil, Nat.le_refl]
        rw [if_neg hk0, if_pos hlen]
    rw [hfin]
    simp only [genFinalize]
    have hoth : ∀ x, x ≠ a → (List.set h a (.map (mapInserts es ((keys.getD []).zip vs))))[x]? = h[x]? :=
      fun x hx => List.getElem?_set_ne (Ne.symm hx)
    refine ⟨rfl, a :: w :: (fv ++ objs U), ⟨⟨hinted, pend, _, a, mapInserts es ((keys.getD []).zip vs), keys, vals, U, fv, rfl, ?_, ?_, ?_, hk, hkk, ?_, ?_, ?_, rfl⟩,
      hn0, ha0⟩, ?_, .refl⟩
    · rw [Mem.read_congr (hoth p.id hpa), hr]
    · exact List.getElem?_set_self halt
    · rw [hoth w (Ne.symm haw), hw]
    · rcases hvs with h' | ⟨b, cs, e1, e2, e3, rfl⟩
      · exact .inl h'
      · refine .inr ⟨b, cs, e1, ?_, e3, rfl⟩
        rw [hoth b (fun he => hafv (by simp [he])), e2]
    · intro u hu
      exact (hU u hu).frame (fun x hx => hoth x (fun he => hao (he ▸ mem_objs hu hx)))
    · intro m hm
      cases cur with
      | none => cases hm
      | some m0 =>
        cases hall : allEntries pend with
        | none => rw [hall] at hm; cases hm
        | some es' =>
          rw [hall] at hm
          simp only [Option.some.injEq] at hm
          subst hm
          obtain ⟨hc, hso⟩ := hcur m0 rfl
          rw [hkk]
          exact ⟨CurIn.inserts hpend hall hc, sorted_inserts _ hso⟩
    · exact Chg.set hr (by simp) (Ne.symm hpa)

/-! ### Runs -/

/-- How two evaluations correspond. -/
def OutSim {R : Type} (h : Mem) (P : MTgt) (fp : List Nat) : Out (Ret R Tgt) → Out (Ret R MState) → Prop
  | .timeout, .timeout => True
  | .err e, .err e' => e = e'
  | .done a, .done b => a.nil = b.nil ∧ a.pc = b.pc ∧ a.r = b.r ∧ b.t.1 = P ∧
      ∃ fp', Own b.t.2 P a.t fp' ∧ Chg P.place fp h b.t.2 ∧ From h fp fp'
  | _, _ => False

theorem OutSim.back {R : Type} {h h1 : Mem} {P : MTgt} {fp fp1 : List Nat} {a : Out (Ret R Tgt)} {b : Out (Ret R MState)}
    (hs : OutSim h1 P fp1 a b) (hc : Chg P.place fp h h1) (hf : From h fp fp1) : OutSim h P fp a b := by
  cases a <;> cases b <;> (try first | exact hs | exact False.elim hs)
  obtain ⟨e1, e2, e3, e4, fp', e5, e6, e7⟩ := hs
  exact ⟨e1, e2, e3, e4, fp', e5, hc.trans e6 hf, From.trans hc.grows hf e7⟩

theorem Follows.bind {R : Type} {h : Mem} {P : MTgt} {fp : List Nat} {A : Except Err Tgt} {B : Except Err MState}
    {X : Out (Ret R Tgt)} {Y : Out (Ret R MState)} (k : Tgt → Out (Ret R Tgt)) (k' : MState → Out (Ret R MState)) (hs : Follows h P fp A B)
    (hXe : ∀ e, A = .error e → X = .err e) (hX : ∀ t, A = .ok t → X = k t)
    (hYe : ∀ e, B = .error e → Y = .err e) (hY : ∀ t, B = .ok t → Y = k' t)
    (hk : ∀ t' h' fp', Own h' P t' fp' → OutSim h' P fp' (k t') (k' (P, h'))) : OutSim h P fp X Y := by
  cases A with
  | error e =>
    cases B with
    | error e' => rw [hXe e rfl, hYe e' rfl]; exact hs
    | ok s => exact False.elim hs
  | ok t =>
    cases B with
    | error e' => exact False.elim hs
    | ok s =>
      obtain ⟨P', h'⟩ := s
      obtain ⟨rfl, fp', e1, e2, e3⟩ := hs
      rw [hX t rfl, hY _ rfl]
      exact (hk t h' fp' e1).back e2 e3

theorem OutSim.bind {R : Type} {h : Mem} {P : MTgt} {fp : List Nat} {E : Out (Ret R Tgt)} {E' : Out (Ret R MState)}
    {X : Out (Ret R Tgt)} {Y : Out (Ret R MState)} (k : Ret R Tgt → Out (Ret R Tgt)) (k' : Ret R MState → Out (Ret R MState))
    (hs : OutSim h P fp E E')
    (hXt : E = .timeout → X = .timeout) (hXe : ∀ e, E = .err e → X = .err e) (hX : ∀ a, E = .done a → X = k a)
    (hYt : E' = .timeout → Y = .timeout) (hYe : ∀ e, E' = .err e → Y = .err e) (hY : ∀ a, E' = .done a → Y = k' a)
    (hk : ∀ (a : Ret R Tgt) (b : Ret R MState) fp', a.nil = b.nil → a.pc = b.pc → a.r = b.r → b.t.1 = P → Own b.t.2 P a.t fp' →
      OutSim b.t.2 P fp' (k a) (k' b)) : OutSim h P fp X Y := by
  cases E with
  | timeout =>
    cases E' with
    | timeout => rw [hXt rfl, hYt rfl]; exact trivial
    | err e => exact False.elim hs
    | done b => exact False.elim hs
  | err e =>
    cases E' with
    | timeout => exact False.elim hs
    | err e' => rw [hXe _ rfl, hYe _ rfl]; exact hs
    | done b => exact False.elim hs
  | done a =>
    cases E' with
    | timeout => exact False.elim hs
    | err e' => exact False.elim hs
    | done b =>
      obtain ⟨r1, r2, r3, r4, f2, r5, r6, r7⟩ := hs
      rw [hX _ rfl, hY _ rfl]
      exact (hk a b f2 r1 r2 r3 r4 r5).back r6 r7

theorem SubSim.bind {R : Type} {h : Mem} {P : MTgt} {fp : List Nat} {put : Tgt → Tgt} {A : Except Err Tgt} {B : Except Err MState}
    {X : Out (Ret R Tgt)} {Y : Out (Ret R MState)}
    (E : Tgt → Out (Ret R Tgt)) (E' : MState → Out (Ret R MState))
    (k : Ret R Tgt → Out (Ret R Tgt)) (k' : Ret R MState → Out (Ret R MState)) (hs : SubSim h P fp put A B)
    (hP : P.place.id < h.length) (ho : ∀ x ∈ fp, x < h.length) (hXe : ∀ e, A = .error e → X = .err e) (hX : ∀ s, A = .ok s → (E s = .timeout → X = .timeout) ∧ (∀ e, E s = .err e → X = .err e) ∧
      ∀ a, E s = .done a → X = k a)
    (hYe : ∀ e, B = .error e → Y = .err e) (hY : ∀ s, B = .ok s → (E' s = .timeout → Y = .timeout) ∧ (∀ e, E' s = .err e → Y = .err e) ∧
      ∀ a, E' s = .done a → Y = k' a)
    (hE : ∀ s S h1 f1, Own h1 S s f1 → OutSim h1 S f1 (E s) (E' (S, h1)))
    (hk : ∀ (a : Ret R Tgt) (b : Ret R MState) fp', a.nil = b.nil → a.pc = b.pc → a.r = b.r → Own b.t.2 P (put a.t) fp' →
      OutSim b.t.2 P fp' (k a) (k' b)) : OutSim h P fp X Y := by
  cases A with
  | error e =>
    cases B with
    | error e' => rw [hXe e rfl, hYe e' rfl]; exact hs
    | ok s => exact False.elim hs
  | ok t =>
    cases B with
    | error e' => exact False.elim hs
    | ok s =>
      obtain ⟨S, h1⟩ := s
      obtain ⟨f1, e1, g1, g2, g3, g4, e2⟩ := hs
      have h3 := hE t S h1 f1 e1
      obtain ⟨x1, x2, x3⟩ := hX _ rfl
      obtain ⟨y1, y2, y3⟩ := hY _ rfl
      cases ha : E t with
      | timeout =>
        cases hb : E' (S, h1) with
        | timeout => rw [x1 ha, y1 hb]; exact trivial
        | err e => rw [ha, hb] at h3; exact False.elim h3
        | done b => rw [ha, hb] at h3; exact False.elim h3
      | err e =>
        cases hb : E' (S, h1) with
        | timeout => rw [ha, hb] at h3; exact False.elim h3
        | err e' => rw [ha, hb] at h3; rw [x2 _ ha, y2 _ hb]; exact h3
        | done b => rw [ha, hb] at h3; exact False.elim h3
      | done a =>
        cases hb : E' (S, h1) with
        | timeout => rw [ha, hb] at h3; exact False.elim h3
        | err e' => rw [ha, hb] at h3; exact False.elim h3
        | done b =>
          rw [ha, hb] at h3
          obtain ⟨r1, r2, r3, r4, f2, r5, r6, r7⟩ := h3
          have hG : ∀ x, Grown (· < h.length) h h1 x → x < h1.length := fun x hx => by
            rcases hx with hx | hx
            · exact Nat.lt_of_lt_of_le hx g1
            · exact hx.2
          obtain ⟨fp', c1, c2, c3, _⟩ := e2 (· < h.length) (fun _ hx => hx) hP ho _ _ _ (r6.toM hG) (r7.toM hG) r5
          rw [x3 _ ha, y3 _ hb]
          exact (hk a b fp' r1 r2 r3 c1).back c2.toChg c3.toFrom

theorem doSet_sim {re : Env} {lim : Nat} {dv : Field → Val} {grow : Nat → Nat} {h : Mem} {P : MTgt} {t : Tgt} {fp : List Nat}
    (ho : Own h P t fp) (arg : Int) (fr : Frame) :
    Follows h P fp (doSet (genOps re lim dv) arg fr t) (doSet (memOps re lim dv grow) arg fr (P, h)) := by
  have hid : Follows h P fp (.ok t) (.ok (P, h)) := by
    obtain ⟨v, hr⟩ := ho.owns.read
    exact ⟨rfl, fp, ho, Chg.refl hr, .refl⟩
  unfold doSet
  have other : ∀ {set : Tgt → Except Err Tgt}, (∀ t, (∀ l s, t ≠ .leaf l s) → set t = .error .panic) → True := fun _ => trivial
  by_cases h1 : arg = opNull
  · rw [if_pos h1, if_pos h1]; exact hid
  rw [if_neg h1, if_neg h1]
  by_cases h2 : arg = opBoolean
  · rw [if_pos h2, if_pos h2]
    exact set_sim (leafSet_boolean _) (fun t ht => by cases t <;> first | rfl | exact absurd rfl (ht _ _)) ho
  rw [if_neg h2, if_neg h2]
  by_cases h3 : arg = opInt
  · rw [if_pos h3, if_pos h3]
    exact set_sim (leafSet_int _) (fun t ht => by cases t <;> first | rfl | exact absurd rfl (ht _ _)) ho
  rw [if_neg h3, if_neg h3]
  by_cases h4 : arg = opLong
  · rw [if_pos h4, if_pos h4]
    exact setLong_sim ho _
  rw [if_neg h4, if_neg h4]
  by_cases h5 : arg = opFloat
  · rw [if_pos h5, if_pos h5]
    exact set_sim (leafSet_float _) (fun t ht => by cases t <;> first | rfl | exact absurd rfl (ht _ _)) ho
  rw [if_neg h5, if_neg h5]
  by_cases h6 : arg = opDouble
  · rw [if_pos h6, if_pos h6]
    exact set_sim (leafSet_double _) (fun t ht => by cases t <;> first | rfl | exact absurd rfl (ht _ _)) ho
  rw [if_neg h6, if_neg h6]
  by_cases h7 : arg = opBytes
  · rw [if_pos h7, if_pos h7]
    exact set_sim (leafSet_bytes _) (fun t ht => by cases t <;> first | rfl | exact absurd rfl (ht _ _)) ho
  rw [if_neg h7, if_neg h7]
  by_cases h8 : arg = opString
  · rw [if_pos h8, if_pos h8]
    exact set_sim (leafSet_string _) (fun t ht => by cases t <;> first | rfl | exact absurd rfl (ht _ _)) ho
  rw [if_neg h8, if_neg h8]
  exact hid

theorem nullIf_sim {re : Env} {lim : Nat} {dv : Field → Val} {grow : Nat → Nat} {h : Mem} {P : MTgt} {t : Tgt} {fp : List Nat}
    (ho : Own h P t fp) (nil : Bool) (i : Int) :
    Follows h P fp (nullIf (genOps re lim dv) nil t i) (nullIf (memOps re lim dv grow) nil (P, h) i) := by
  cases nil with
  | false =>
    obtain ⟨v, hr⟩ := ho.owns.read
    exact ⟨rfl, fp, ho, Chg.refl hr, .refl⟩
  | true => exact nullField_sim ho i

/-- The evaluation of any program, with targets as states and with targets in memory. -/
theorem evalInner_sim {R : Type} {ro : ReaderOps R} {re : Env} {lim : Nat} {dv : Field → Val} {grow : Nat → Nat} {p : Program} :
    ∀ (n pc : Nat) (fr : Frame) (fl : Bool) (r : R) (P : MTgt) (t : Tgt) (h : Mem) (fp : List Nat), Own h P t fp →
      OutSim h P fp (evalInner ro (genOps re lim dv) p n pc fr fl r t) (evalInner ro (memOps re lim dv grow) p n pc fr fl r (P, h))
  | 0, _, _, _, _, _, _, _, _, _ => trivial
  | n + 1, pc, fr, fl, r, P, t, h, fp, ho => by
    have ih := @evalInner_sim R ro re lim dv grow p n
    have hdone : ∀ nil pc (r : R), OutSim h P fp (.done ⟨nil, pc, r, t⟩) (.done ⟨nil, pc, r, (P, h)⟩) := fun nil pc r => by
      obtain ⟨v, hr⟩ := ho.owns.read
      exact ⟨rfl, rfl, rfl, rfl, fp, ho, Chg.refl hr, .refl⟩
    have hPlt : P.place.id < h.length := by
      obtain ⟨v, hr⟩ := ho.owns.read
      exact Mem.read_lt hr
    unfold evalInner
    cases hi : p.instrs[pc]? with
    | none => exact hdone _ _ _
    | some i =>
      obtain ⟨op, arg⟩ := i
      cases op with
      | read =>
        simp only
        cases doRead ro arg fr r with
        | error e => exact rfl
        | ok x => exact ih _ _ _ _ _ _ _ _ ho
      | set =>
        simp only
        refine Follows.bind (A := doSet (genOps re lim dv) arg fr t) (B := doSet (memOps re lim dv grow) arg fr (P, h))
          (fun t => evalInner ro (genOps re lim dv) p n (pc + 1) fr fl r t) (fun s => evalInner ro (memOps re lim dv grow) p n (pc + 1) fr fl r s)
          (doSet_sim ho arg fr) (fun e he => by simp only [he]) (fun t he => by simp only [he]) (fun e he => by simp only [he]) (fun t he => by simp only [he]) ?_
        exact fun t' h' fp' ho' => ih _ _ _ _ _ _ _ _ ho'
      | setDefault =>
        simp only
        refine Follows.bind (A := (genOps re lim dv).setDefault t arg) (B := (memOps re lim dv grow).setDefault (P, h) arg)
          (fun t => evalInner ro (genOps re lim dv) p n (pc + 1) fr fl r t) (fun s => evalInner ro (memOps re lim dv grow) p n (pc + 1) fr fl r s)
          (setDefault_sim ho arg) (fun e he => by simp only [he]) (fun t he => by simp only [he]) (fun e he => by simp only [he]) (fun t he => by simp only [he]) ?_
        exact fun t' h' fp' ho' => ih _ _ _ _ _ _ _ _ ho'
      | enter =>
        simp only
        refine SubSim.bind (A := (genOps re lim dv).get t arg) (B := (memOps re lim dv grow).get (P, h) arg)
          (fun s => evalInner ro (genOps re lim dv) p n (pc + 1) {} false r s) (fun s => evalInner ro (memOps re lim dv grow) p n (pc + 1) {} false r s)
          (fun ret => match nullIf (genOps re lim dv) ret.nil ((genOps re lim dv).put t arg ret.t) arg with
            | .error e => .err e
            | .ok t' => evalInner ro (genOps re lim dv) p n (ret.pc + 1) fr fl ret.r t')
          (fun ret => match nullIf (memOps re lim dv grow) ret.nil ((memOps re lim dv grow).put (P, h) arg ret.t) arg with
            | .error e => .err e
            | .ok t' => evalInner ro (memOps re lim dv grow) p n (ret.pc + 1) fr fl ret.r t')
          (get_sim ho arg) hPlt ho.lt (fun e he => by simp only [he])
          (fun s he => ⟨fun h2 => by simp only [he, h2], fun e h2 => by simp only [he, h2], fun a h2 => by simp only [he, h2]; generalize nullIf _ _ _ _ = z; cases z <;> rfl⟩)
          (fun e he => by simp only [he])
          (fun s he => ⟨fun h2 => by simp only [he, h2], fun e h2 => by simp only [he, h2], fun a h2 => by simp only [he, h2]; generalize nullIf _ _ _ _ = z; cases z <;> rfl⟩)
          (fun s S h1 f1 h2 => ih _ _ _ _ _ _ _ _ h2) ?_
        rintro ⟨an, ap, ar, at'⟩ ⟨bn, bp, br, bt⟩ fp' rfl rfl rfl ho'
        refine Follows.bind (fun t' => evalInner ro (genOps re lim dv) p n (ap + 1) fr fl ar t')
          (fun t' => evalInner ro (memOps re lim dv grow) p n (ap + 1) fr fl ar t') (nullIf_sim (re := re) (lim := lim) (dv := dv) (grow := grow) ho' an arg)
          (fun e he => ?_) (fun t1 he => ?_) (fun e he => ?_) (fun t1 he => ?_) (fun t' h' fp' ho' => ih _ _ _ _ _ _ _ _ ho')
        · have he' : nullIf (genOps re lim dv) an (genPut t arg at') arg = .error e := he
          show (match nullIf (genOps re lim dv) an (genPut t arg at') arg with | .error e => _ | .ok t' => _) = _
          rw [he']
        · have he' : nullIf (genOps re lim dv) an (genPut t arg at') arg = .ok t1 := he
          show (match nullIf (genOps re lim dv) an (genPut t arg at') arg with | .error e => _ | .ok t' => _) = _
          rw [he']
        · show (match nullIf (memOps re lim dv grow) an (P, bt.2) _ with | .error e => _ | .ok t' => _) = _
          rw [he]
        · show (match nullIf (memOps re lim dv grow) an (P, bt.2) _ with | .error e => _ | .ok t' => _) = _
          rw [he]
      | exit =>
        simp only
        refine Follows.bind (A := (genOps re lim dv).finalize t) (B := (memOps re lim dv grow).finalize (P, h))
          (fun t => .done ⟨fl, pc, r, t⟩) (fun s => .done ⟨fl, pc, r, s⟩)
          (finalize_sim ho) (fun e he => by simp only [he]) (fun t he => by simp only [he]) (fun e he => by simp only [he]) (fun t he => by simp only [he]) ?_
        intro t' h' fp' ho'
        obtain ⟨v, hr⟩ := ho'.owns.read
        exact ⟨rfl, rfl, rfl, rfl, fp', ho', Chg.refl hr, .refl⟩
      | setExitNull => exact ih _ _ _ _ _ _ _ _ ho
      | appendArray =>
        simp only
        refine SubSim.bind (A := (genOps re lim dv).appendArray t) (B := (memOps re lim dv grow).appendArray (P, h))
          (fun s => evalInner ro (genOps re lim dv) p n (pc + 1) {} false r s) (fun s => evalInner ro (memOps re lim dv grow) p n (pc + 1) {} false r s)
          (fun ret => match nullIf (genOps re lim dv) ret.nil ((genOps re lim dv).putArray t ret.t) (-1) with
            | .error e => .err e
            | .ok t' => evalInner ro (genOps re lim dv) p n (ret.pc + 1) fr fl ret.r t')
          (fun ret => match nullIf (memOps re lim dv grow) ret.nil ((memOps re lim dv grow).putArray (P, h) ret.t) (-1) with
            | .error e => .err e
            | .ok t' => evalInner ro (memOps re lim dv grow) p n (ret.pc + 1) fr fl ret.r t')
          (appendArray_sim ho) hPlt ho.lt (fun e he => by simp only [he])
          (fun s he => ⟨fun h2 => by simp only [he, h2], fun e h2 => by simp only [he, h2], fun a h2 => by simp only [he, h2]; generalize nullIf _ _ _ _ = z; cases z <;> rfl⟩)
          (fun e he => by simp only [he])
          (fun s he => ⟨fun h2 => by simp only [he, h2], fun e h2 => by simp only [he, h2], fun a h2 => by simp only [he, h2]; generalize nullIf _ _ _ _ = z; cases z <;> rfl⟩)
          (fun s S h1 f1 h2 => ih _ _ _ _ _ _ _ _ h2) ?_
        rintro ⟨an, ap, ar, at'⟩ ⟨bn, bp, br, bt⟩ fp' rfl rfl rfl ho'
        refine Follows.bind (fun t' => evalInner ro (genOps re lim dv) p n (ap + 1) fr fl ar t')
          (fun t' => evalInner ro (memOps re lim dv grow) p n (ap + 1) fr fl ar t') (nullIf_sim (re := re) (lim := lim) (dv := dv) (grow := grow) ho' an (-1))
          (fun e he => ?_) (fun t1 he => ?_) (fun e he => ?_) (fun t1 he => ?_) (fun t' h' fp' ho' => ih _ _ _ _ _ _ _ _ ho')
        · have he' : nullIf (genOps re lim dv) an (genPutArray t at') (-1) = .error e := he
          show (match nullIf (genOps re lim dv) an (genPutArray t at') (-1) with | .error e => _ | .ok t' => _) = _
          rw [he']
        · have he' : nullIf (genOps re lim dv) an (genPutArray t at') (-1) = .ok t1 := he
          show (match nullIf (genOps re lim dv) an (genPutArray t at') (-1) with | .error e => _ | .ok t' => _) = _
          rw [he']
        · show (match nullIf (memOps re lim dv grow) an (P, bt.2) _ with | .error e => _ | .ok t' => _) = _
          rw [he]
        · show (match nullIf (memOps re lim dv grow) an (P, bt.2) _ with | .error e => _ | .ok t' => _) = _
          rw [he]
      | appendMap =>
        simp only
        refine SubSim.bind (A := (genOps re lim dv).appendMap t fr.string) (B := (memOps re lim dv grow).appendMap (P, h) fr.string)
          (fun s => evalInner ro (genOps re lim dv) p n (pc + 1) {} false r s) (fun s => evalInner ro (memOps re lim dv grow) p n (pc + 1) {} false r s)
          (fun ret => match nullIf (genOps re lim dv) ret.nil ((genOps re lim dv).putMap t fr.string ret.t) (-1) with
            | .error e => .err e
            | .ok t' => evalInner ro (genOps re lim dv) p n (ret.pc + 1) fr fl ret.r t')
          (fun ret => match nullIf (memOps re lim dv grow) ret.nil ((memOps re lim dv grow).putMap (P, h) fr.string ret.t) (-1) with
            | .error e => .err e
            | .ok t' => evalInner ro (memOps re lim dv grow) p n (ret.pc + 1) fr fl ret.r t')
          (appendMap_sim ho fr.string) hPlt ho.lt (fun e he => by simp only [he])
          (fun s he => ⟨fun h2 => by simp only [he, h2], fun e h2 => by simp only [he, h2], fun a h2 => by simp only [he, h2]; generalize nullIf _ _ _ _ = z; cases z <;> rfl⟩)
          (fun e he => by simp only [he])
          (fun s he => ⟨fun h2 => by simp only [he, h2], fun e h2 => by simp only [he, h2], fun a h2 => by simp only [he, h2]; generalize nullIf _ _ _ _ = z; cases z <;> rfl⟩)
          (fun s S h1 f1 h2 => ih _ _ _ _ _ _ _ _ h2) ?_
        rintro ⟨an, ap, ar, at'⟩ ⟨bn, bp, br, bt⟩ fp' rfl rfl rfl ho'
        refine Follows.bind (fun t' => evalInner ro (genOps re lim dv) p n (ap + 1) fr fl ar t')
          (fun t' => evalInner ro (memOps re lim dv grow) p n (ap + 1) fr fl ar t') (nullIf_sim (re := re) (lim := lim) (dv := dv) (grow := grow) ho' an (-1))
          (fun e he => ?_) (fun t1 he => ?_) (fun e he => ?_) (fun t1 he => ?_) (fun t' h' fp' ho' => ih _ _ _ _ _ _ _ _ ho')
        · have he' : nullIf (genOps re lim dv) an (genPutMap t fr.string at') (-1) = .error e := he
          show (match nullIf (genOps re lim dv) an (genPutMap t fr.string at') (-1) with | .error e => _ | .ok t' => _) = _
          rw [he']
        · have he' : nullIf (genOps re lim dv) an (genPutMap t fr.string at') (-1) = .ok t1 := he
          show (match nullIf (genOps re lim dv) an (genPutMap t fr.string at') (-1) with | .error e => _ | .ok t' => _) = _
          rw [he']
        · show (match nullIf (memOps re lim dv grow) an (P, bt.2) _ with | .error e => _ | .ok t' => _) = _
          rw [he]
        · show (match nullIf (memOps re lim dv grow) an (P, bt.2) _ with | .error e => _ | .ok t' => _) = _
          rw [he]
      | call =>
        simp only
        by_cases hneg : arg < 0
        · rw [if_pos hneg, if_pos hneg]; exact rfl
        · rw [if_neg hneg, if_neg hneg]
          refine OutSim.bind (fun ret => evalInner ro (genOps re lim dv) p n (pc + 1) fr fl ret.r ret.t)
            (fun ret => evalInner ro (memOps re lim dv grow) p n (pc + 1) fr fl ret.r ret.t)
            (ih (arg.toNat) {} false r _ _ _ _ ho) (fun he => by simp only [he]) (fun e he => by simp only [he]) (fun a he => by simp only [he])
            (fun he => by simp only [he]) (fun e he => by simp only [he]) (fun a he => by simp only [he]) ?_
          rintro ⟨an, ap, ar, at'⟩ ⟨bn, bp, br, bt1, bt2⟩ fp' rfl rfl rfl rfl ho'
          exact ih _ _ _ _ _ _ _ _ ho'
      | ret => exact hdone _ _ _
      | jump =>
        simp only
        by_cases hneg : arg < 0
        · rw [if_pos hneg, if_pos hneg]; exact rfl
        · rw [if_neg hneg, if_neg hneg]; exact ih _ _ _ _ _ _ _ _ ho
      | evalGreater => exact ih _ _ _ _ _ _ _ _ ho
      | evalEqual => exact ih _ _ _ _ _ _ _ _ ho
      | condJump =>
        simp only
        by_cases hc : fr.cond = true
        · rw [if_pos hc, if_pos hc]
          by_cases hneg : arg < 0
          · rw [if_pos hneg, if_pos hneg]; exact rfl
          · rw [if_neg hneg, if_neg hneg]; exact ih _ _ _ _ _ _ _ _ ho
        · rw [if_neg hc, if_neg hc]; exact ih _ _ _ _ _ _ _ _ ho
      | addLong => exact ih _ _ _ _ _ _ _ _ ho
      | setLong => exact ih _ _ _ _ _ _ _ _ ho
      | setInt => exact ih _ _ _ _ _ _ _ _ ho
      | multLong => exact ih _ _ _ _ _ _ _ _ ho
      | hintSize =>
        simp only
        refine Follows.bind (A := (genOps re lim dv).hintSize t fr.long) (B := (memOps re lim dv grow).hintSize (P, h) fr.long)
          (fun t => evalInner ro (genOps re lim dv) p n (pc + 1) fr fl r t) (fun s => evalInner ro (memOps re lim dv grow) p n (pc + 1) fr fl r s)
          (hintSize_sim ho fr.long) (fun e he => by simp only [he]) (fun t he => by simp only [he]) (fun e he => by simp only [he]) (fun t he => by simp only [he]) ?_
        exact fun t' h' fp' ho' => ih _ _ _ _ _ _ _ _ ho'
      | pushLoop =>
        simp only
        refine OutSim.bind (fun ret => evalInner ro (genOps re lim dv) p n (ret.pc + 1) fr fl ret.r ret.t)
          (fun ret => evalInner ro (memOps re lim dv grow) p n (ret.pc + 1) fr fl ret.r ret.t)
          (ih (pc + 1) {} false r _ _ _ _ ho) (fun he => by simp only [he]) (fun e he => by simp only [he]) (fun a he => by simp only [he])
          (fun he => by simp only [he]) (fun e he => by simp only [he]) (fun a he => by simp only [he]) ?_
        rintro ⟨an, ap, ar, at'⟩ ⟨bn, bp, br, bt1, bt2⟩ fp' rfl rfl rfl rfl ho'
        exact ih _ _ _ _ _ _ _ _ ho'
      | popLoop => exact hdone _ _ _
      | halt =>
        simp only
        by_cases h0 : arg = 0
        · rw [if_pos h0, if_pos h0]; exact hdone _ _ _
        · rw [if_neg h0, if_neg h0]
          by_cases hneg : arg < 0
          · rw [if_pos hneg, if_pos hneg]; exact rfl
          · rw [if_neg hneg, if_neg hneg]
            cases p.errors[arg.toNat - 1]? with
            | none => exact rfl
            | some m => exact rfl
      | nullField =>
        simp only
        refine Follows.bind (A := (genOps re lim dv).nullField t arg) (B := (memOps re lim dv grow).nullField (P, h) arg)
          (fun t => evalInner ro (genOps re lim dv) p n (pc + 1) fr fl r t) (fun s => evalInner ro (memOps re lim dv grow) p n (pc + 1) fr fl r s)
          (nullField_sim ho arg) (fun e he => by simp only [he]) (fun t he => by simp only [he]) (fun e he => by simp only [he]) (fun t he => by simp only [he]) ?_
        exact fun t' h' fp' ho' => ih _ _ _ _ _ _ _ _ ho'
end Verif
