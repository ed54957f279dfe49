import Verif.Gen.MemSub
/-
The methods of targets in memory, one by one.
-/
namespace Verif
set_option linter.unusedSimpArgs false
set_option linter.unusedVariables false

/-! ### Types without parts -/

/-- A method that assigns a value without parts. -/
structure LeafSet (set : Tgt → Except Err Tgt) : Prop where
  old : ∀ l s s', (∀ n, fixedBytes n s = fixedBytes n s') → set (.leaf l s) = set (.leaf l s')
  null : ∀ s, set (.leaf .null s) = .error .panic
  ok : ∀ l s t', set (.leaf l s) = .ok t' → ∃ x, t' = .leaf l (some x) ∧ ∀ h, VarShows h x (.prim x) []

theorem leafSet_boolean (v : Bool) : LeafSet (fun t => genSetBoolean t v) where
  old l s s' _ := by cases l <;> rfl
  null s := rfl
  ok l s t' h := by cases l <;> simp [genSetBoolean] at h <;> subst h <;> exact ⟨_, rfl, fun _ => by simp [VarShows]⟩

theorem leafSet_int (v : BitVec 32) : LeafSet (fun t => genSetInt t v) where
  old l s s' _ := by cases l <;> rfl
  null s := rfl
  ok l s t' h := by cases l <;> simp [genSetInt] at h <;> subst h <;> exact ⟨_, rfl, fun _ => by simp [VarShows]⟩

theorem leafSet_long (v : BitVec 64) : LeafSet (fun t => genSetLong t v) where
  old l s s' _ := by cases l <;> rfl
  null s := rfl
  ok l s t' h := by cases l <;> simp [genSetLong] at h <;> subst h <;> exact ⟨_, rfl, fun _ => by simp [VarShows]⟩

theorem leafSet_float (v : BitVec 32) : LeafSet (fun t => genSetFloat t v) where
  old l s s' _ := by cases l <;> rfl
  null s := rfl
  ok l s t' h := by cases l <;> simp [genSetFloat] at h <;> subst h <;> exact ⟨_, rfl, fun _ => by simp [VarShows]⟩

theorem leafSet_double (v : BitVec 64) : LeafSet (fun t => genSetDouble t v) where
  old l s s' _ := by cases l <;> rfl
  null s := rfl
  ok l s t' h := by cases l <;> simp [genSetDouble] at h <;> subst h <;> exact ⟨_, rfl, fun _ => by simp [VarShows]⟩

theorem leafSet_bytes (v : List Byte) : LeafSet (fun t => genSetBytes t v) where
  old l s s' h := by cases l <;> first | rfl | simp only [genSetBytes, h]
  null s := rfl
  ok l s t' h := by cases l <;> simp [genSetBytes] at h <;> subst h <;> exact ⟨_, rfl, fun _ => by simp [VarShows]⟩

theorem leafSet_string (v : List Byte) : LeafSet (fun t => genSetString t v) where
  old l s s' _ := by cases l <;> rfl
  null s := rfl
  ok l s t' h := by cases l <;> simp [genSetString] at h <;> subst h <;> exact ⟨_, rfl, fun _ => by simp [VarShows]⟩

theorem SlotShows.old {h : Mem} {s : Option Val} {v : Var} {fp : List Nat} (hs : SlotShows h s v fp) (n : Nat) :
    fixedBytes n s = fixedBytes n v.old := by
  cases s with
  | none =>
    cases v with
    | prim y =>
      cases y with
      | fixed bs => exact absurd rfl (hs.2 bs)
      | _ => rfl
    | _ => rfl
  | some x =>
    cases v with
    | prim y =>
      obtain ⟨rfl, _⟩ := VarShows.prim hs
      rfl
    | _ => cases x <;> first | rfl | simp [SlotShows, VarShows] at hs

theorem setLeaf_sim {set : Tgt → Except Err Tgt} (hset : LeafSet set) {h : Mem} {l : Leaf} {p : Place} {t : Tgt} {fp : List Nat}
    (ho : Own h (.leaf l p) t fp) : Follows h (.leaf l p) fp (set t) (memSetLeaf set l p h) := by
  obtain ⟨⟨s, v, rfl, hr, hv⟩, hn, ha⟩ := ho
  simp only [memSetLeaf, hr]
  by_cases hl : l = .null
  · subst hl
    rw [hset.null, hset.null]
    exact rfl
  · rw [if_neg hl] at hv
    rw [hset.old l v.old s (fun n => (hv.old n).symm)]
    cases hx : set (.leaf l s) with
    | error e => exact rfl
    | ok t' =>
      obtain ⟨x, rfl, hxs⟩ := hset.ok l s t' hx
      refine ⟨rfl, [], ⟨⟨some x, .prim x, rfl, Mem.read_write hr, ?_⟩, by simp, by simp⟩, Chg.write hr, .nil⟩
      rw [if_neg hl]
      exact hxs _

theorem set_sim {set : Tgt → Except Err Tgt} (hset : LeafSet set) (hother : ∀ t, (∀ l s, t ≠ .leaf l s) → set t = .error .panic)
    {h : Mem} {P : MTgt} {t : Tgt} {fp : List Nat} (ho : Own h P t fp) : Follows h P fp (set t) (memSet set (P, h)) := by
  cases P with
  | leaf l p => exact setLeaf_sim hset ho
  | array i p =>
    obtain ⟨_, _, _, _, rfl, _⟩ := ho.owns
    rw [hother _ (fun _ _ h => by cases h)]; exact rfl
  | map i p w =>
    obtain ⟨_, _, _, _, _, _, _, _, _, rfl, _⟩ := ho.owns
    rw [hother _ (fun _ _ h => by cases h)]; exact rfl
  | union ts p =>
    obtain ⟨_, _, _, _, rfl, _⟩ := ho.owns
    rw [hother _ (fun _ _ h => by cases h)]; exact rfl
  | record fs p =>
    obtain ⟨_, _, _, rfl, _⟩ := ho.owns
    rw [hother _ (fun _ _ h => by cases h)]; exact rfl
  | bad p =>
    obtain ⟨rfl, _⟩ := ho.owns
    rw [hother _ (fun _ _ h => by cases h)]; exact rfl

/-- `SetLong`. -/
theorem setLong_sim {h : Mem} {P : MTgt} {t : Tgt} {fp : List Nat} (ho : Own h P t fp) (v : BitVec 64) :
    Follows h P fp (genSetLong t v) (memSetLong (P, h) v) := by
  cases P with
  | leaf l p => exact setLeaf_sim (leafSet_long v) ho
  | array i p => obtain ⟨_, _, _, _, rfl, _⟩ := ho.owns; exact rfl
  | map i p w => obtain ⟨_, _, _, _, _, _, _, _, _, rfl, _⟩ := ho.owns; exact rfl
  | record fs p => obtain ⟨_, _, _, rfl, _⟩ := ho.owns; exact rfl
  | bad p => obtain ⟨rfl, _⟩ := ho.owns; exact rfl
  | union ts p =>
    obtain ⟨⟨tag, sel, slots, vs, rfl, hr, hs, hlen⟩, hn, ha⟩ := ho
    simp only [memSetLong, genSetLong, hr]
    refine ⟨rfl, fp, ⟨⟨v, sel, slots, vs, rfl, Mem.read_write hr, ?_, hlen⟩, hn, ha⟩, Chg.write hr, .refl⟩
    exact hs.frame (fun a hm => Mem.write_other (fun he => ha (show p.id ∈ fp from he ▸ hm)))

/-! ### Records: nil and default values -/

/-- A field is assigned a variable that is made of new objects. -/
theorem struct_assign {h : Mem} {p : Place} {tag : BitVec 64} {vs : List Var} {slots : List (Option Val)} {fp : List Nat}
    {i : Nat} (hr : h.read p = some (.struct tag vs)) (hs : SlotsShow h slots vs fp) (hn : fp.Nodup) (ha : p.id ∉ fp)
    (hi : i < slots.length) {l : Mem} {x : Val} {v2 : Var} {f2 : List Nat} (hx : VarShows (h ++ l) x v2 f2) (hn2 : f2.Nodup)
    (hf2 : ∀ a ∈ f2, h.length ≤ a) :
    ∃ fp', Mem.read (Mem.write (h ++ l) (p.field i) v2) p = some (.struct tag (vs.set i v2)) ∧
      SlotsShow (Mem.write (h ++ l) (p.field i) v2) (slots.set i (some x)) (vs.set i v2) fp' ∧ fp'.Nodup ∧ p.id ∉ fp' ∧ From h fp fp' ∧
      Chg p fp h (Mem.write (h ++ l) (p.field i) v2) := by
  obtain ⟨v, f, g, e1, e2, e3, e4⟩ := hs.focus hi
  have hr0 := read_field hr e1
  have hplt := Mem.read_lt hr
  have hr1 : Mem.read (h ++ l) (p.field i) = some v := by rw [Mem.read_append (Mem.read_lt hr0), hr0]
  have hc : Chg (p.field i) f h (Mem.write (h ++ l) (p.field i) v2) :=
    (Chg.append (fp := f) hr0).trans (Chg.write (fp := f) hr1) .refl
  refine struct_change hr hs hn ha e3 e4 hc (Mem.read_write hr1) ?_ hn2 ?_ (fun a hm => .inr (hf2 a hm))
  · refine VarShows.frame x hx (fun a hm => Mem.write_other ?_)
    intro he
    have := hf2 a hm
    have he' : a = p.id := he
    omega
  · intro hm
    have := hf2 _ hm
    omega

mutual
/-- What the statements of a default value make: new objects only. -/
theorem build_shows {env : Env} : ∀ (x : Val) (t : Ty) (h : Mem), ∃ l fp, (memBuild env x t h).2 = h ++ l ∧
    VarShows (h ++ l) x (memBuild env x t h).1 fp ∧ fp.Nodup ∧ ∀ a ∈ fp, h.length ≤ a
  | .array xs, t, h => by
    obtain ⟨l, fp, e1, e2, e3, e4⟩ := buildAll_shows (env := env) xs (List.replicate xs.length t.item) h
    have hlen : (memBuildAll env xs (List.replicate xs.length t.item) h).1.length = xs.length := VarsShow.length xs e2
    refine ⟨l ++ [.var (.struct 0 (memBuildAll env xs (List.replicate xs.length t.item) h).1)], (h ++ l).length :: fp, ?_, ?_, ?_, ?_⟩
    · simp only [memBuild, e1, List.append_assoc]
    · simp only [VarShows, memBuild, e1]
      refine ⟨_, _, fp, rfl, by rw [← List.append_assoc]; exact Mem.get_new, ?_, rfl⟩
      rw [List.take_of_length_le (Nat.le_of_eq hlen), ← List.append_assoc]
      exact VarsShow.frame xs e2 (fun a ha => Mem.get_append (VarsShow.lt xs e2 a ha))
    · exact List.nodup_cons.mpr ⟨fun hm => Nat.lt_irrefl _ (VarsShow.lt xs e2 _ hm), e3⟩
    · intro a ha
      rcases List.mem_cons.mp ha with rfl | ha
      · simp
      · exact e4 a ha
  | .map es, t, h => by
    obtain ⟨l, fp, e1, e2, e3, e4⟩ := buildEntries_shows (env := env) es t.item h
    refine ⟨l ++ [.map (memBuildEntries env es t.item h).1], (h ++ l).length :: fp, ?_, ?_, ?_, ?_⟩
    · simp only [memBuild, e1, List.append_assoc]
    · simp only [VarShows, memBuild, e1]
      refine ⟨_, _, fp, rfl, by rw [← List.append_assoc]; exact Mem.get_new, ?_, rfl⟩
      rw [← List.append_assoc]
      exact EntriesShow.frame es e2 (fun a ha => Mem.get_append (EntriesShow.lt es e2 a ha))
    · exact List.nodup_cons.mpr ⟨fun hm => Nat.lt_irrefl _ (EntriesShow.lt es e2 _ hm), e3⟩
    · intro a ha
      rcases List.mem_cons.mp ha with rfl | ha
      · simp
      · exact e4 a ha
  | .record xs, t, h => by
    obtain ⟨l, fp, e1, e2, e3, e4⟩ := buildAll_shows (env := env) xs (t.fields env) h
    refine ⟨l, fp, ?_, ?_, e3, e4⟩
    · simp only [memBuild, e1]
    · simp only [VarShows, memBuild]
      exact ⟨0, _, rfl, e2⟩
  | .union tag x, t, h => by
    obtain ⟨l, fp, e1, e2, e3, e4⟩ := buildMember_shows (env := env) x (t.member tag.toNat) h
    have hw : tag.toNat < t.width tag.toNat := by
      unfold Ty.width; split <;> omega
    have hm : ∀ h', (∀ a ∈ fp, h'[a]? = (h ++ l)[a]?) → MemberShows h' x tag
        ((List.replicate (t.width tag.toNat) .junk).set tag.toNat (memBuildMember env x (t.member tag.toNat) h).1) fp := by
      intro h' hf
      cases x with
      | none => simp only [MemberShows]; exact e2
      | some x =>
        simp only [MemberShows]
        refine ⟨tag.toNat, (memBuildMember env (some x) (t.member tag.toNat) h).1, ?_, ?_, VarShows.frame x e2 hf⟩
        · simp
        · rw [List.getElem?_set_self (by simpa using hw)]
    by_cases hu : t.nullable = true
    · refine ⟨l ++ [.var (.struct tag ((List.replicate (t.width tag.toNat) .junk).set tag.toNat
        (memBuildMember env x (t.member tag.toNat) h).1))], (h ++ l).length :: fp, ?_, ?_, ?_, ?_⟩
      · simp only [memBuild, memUnion, if_pos hu, e1, List.append_assoc]
      · simp only [VarShows, memBuild, memUnion, if_pos hu, e1]
        refine .inr ⟨_, _, fp, rfl, by rw [← List.append_assoc]; exact Mem.get_new, hm _ ?_, rfl⟩
        intro a ha
        rw [← List.append_assoc]
        refine Mem.get_append ?_
        cases x with
        | none => rw [show fp = [] from e2] at ha; cases ha
        | some x => exact VarShows.lt x e2 a ha
      · refine List.nodup_cons.mpr ⟨fun hmem => ?_, e3⟩
        cases x with
        | none => rw [show fp = [] from e2] at hmem; cases hmem
        | some x => exact Nat.lt_irrefl _ (VarShows.lt x e2 _ hmem)
      · intro a ha
        rcases List.mem_cons.mp ha with rfl | ha
        · simp
        · exact e4 a ha
    · refine ⟨l, fp, ?_, ?_, e3, e4⟩
      · simp only [memBuild, memUnion, if_neg hu, e1]
      · simp only [VarShows, memBuild, memUnion, if_neg hu]
        exact .inl ⟨_, rfl, hm _ (fun _ _ => rfl)⟩
  | .nil, t, h => ⟨[], [], by simp [memBuild], by simp [memBuild, VarShows], by simp, by simp⟩
  | .null, t, h => ⟨[], [], by simp [memBuild], by simp [memBuild, VarShows], by simp, by simp⟩
  | .bool _, t, h => ⟨[], [], by simp [memBuild], by simp [memBuild, VarShows], by simp, by simp⟩
  | .int _, t, h => ⟨[], [], by simp [memBuild], by simp [memBuild, VarShows], by simp, by simp⟩
  | .long _, t, h => ⟨[], [], by simp [memBuild], by simp [memBuild, VarShows], by simp, by simp⟩
  | .float _, t, h => ⟨[], [], by simp [memBuild], by simp [memBuild, VarShows], by simp, by simp⟩
  | .double _, t, h => ⟨[], [], by simp [memBuild], by simp [memBuild, VarShows], by simp, by simp⟩
  | .bytes _, t, h => ⟨[], [], by simp [memBuild], by simp [memBuild, VarShows], by simp, by simp⟩
  | .string _, t, h => ⟨[], [], by simp [memBuild], by simp [memBuild, VarShows], by simp, by simp⟩
  | .enum _, t, h => ⟨[], [], by simp [memBuild], by simp [memBuild, VarShows], by simp, by simp⟩
  | .fixed _, t, h => ⟨[], [], by simp [memBuild], by simp [memBuild, VarShows], by simp, by simp⟩
theorem buildAll_shows {env : Env} : ∀ (xs : List Val) (ts : List Ty) (h : Mem), ∃ l fp, (memBuildAll env xs ts h).2 = h ++ l ∧
    VarsShow (h ++ l) xs (memBuildAll env xs ts h).1 fp ∧ fp.Nodup ∧ ∀ a ∈ fp, h.length ≤ a
  | [], ts, h => ⟨[], [], by simp [memBuildAll], by simp [memBuildAll, VarsShow], by simp, by simp⟩
  | x :: xs, ts, h => by
    obtain ⟨l, fp, e1, e2, e3, e4⟩ := build_shows (env := env) x (ts.headD .null) h
    obtain ⟨l2, fp2, r1, r2, r3, r4⟩ := buildAll_shows (env := env) xs ts.tail (h ++ l)
    have hlt := VarShows.lt x e2
    refine ⟨l ++ l2, fp ++ fp2, ?_, ?_, ?_, ?_⟩
    · simp only [memBuildAll, e1, r1, List.append_assoc]
    · simp only [VarsShow, memBuildAll, e1]
      rw [← List.append_assoc]
      exact ⟨_, _, fp, fp2, rfl, VarShows.frame x e2 (fun a ha => Mem.get_append (hlt a ha)), r2, rfl⟩
    · refine List.nodup_append.mpr ⟨e3, r3, ?_⟩
      rintro a ha b hb rfl
      have := hlt a ha
      have := r4 a hb
      omega
    · intro a ha
      rcases List.mem_append.mp ha with ha | ha
      · exact e4 a ha
      · have := r4 a ha
        simp only [List.length_append] at this
        omega
theorem buildEntries_shows {env : Env} : ∀ (es : List (List Byte × Val)) (t : Ty) (h : Mem), ∃ l fp,
    (memBuildEntries env es t h).2 = h ++ l ∧
    EntriesShow (h ++ l) es (memBuildEntries env es t h).1 fp ∧ fp.Nodup ∧ ∀ a ∈ fp, h.length ≤ a
  | [], t, h => ⟨[], [], by simp [memBuildEntries], by simp [memBuildEntries, EntriesShow], by simp, by simp⟩
  | (k, x) :: es, t, h => by
    obtain ⟨l, fp, e1, e2, e3, e4⟩ := build_shows (env := env) x t h
    obtain ⟨l2, fp2, r1, r2, r3, r4⟩ := buildEntries_shows (env := env) es t (h ++ l)
    have hlt := VarShows.lt x e2
    refine ⟨l ++ l2, fp ++ fp2, ?_, ?_, ?_, ?_⟩
    · simp only [memBuildEntries, e1, r1, List.append_assoc]
    · simp only [EntriesShow, memBuildEntries, e1]
      rw [← List.append_assoc]
      exact ⟨_, _, fp, fp2, rfl, VarShows.frame x e2 (fun a ha => Mem.get_append (hlt a ha)), r2, rfl⟩
    · refine List.nodup_append.mpr ⟨e3, r3, ?_⟩
      rintro a ha b hb rfl
      have := hlt a ha
      have := r4 a hb
      omega
    · intro a ha
      rcases List.mem_append.mp ha with ha | ha
      · exact e4 a ha
      · have := r4 a ha
        simp only [List.length_append] at this
        omega
theorem buildMember_shows {env : Env} : ∀ (x : Option Val) (t : Ty) (h : Mem), ∃ l fp,
    (memBuildMember env x t h).2 = h ++ l ∧
    (match x with | none => fp = [] | some x => VarShows (h ++ l) x (memBuildMember env (some x) t h).1 fp) ∧
    fp.Nodup ∧ ∀ a ∈ fp, h.length ≤ a
  | none, t, h => ⟨[], [], by simp [memBuildMember], rfl, by simp, by simp⟩
  | some x, t, h => by
    obtain ⟨l, fp, e1, e2, e3, e4⟩ := build_shows (env := env) x t h
    exact ⟨l, fp, by simp only [memBuildMember, e1], by simp only [memBuildMember]; exact e2, e3, e4⟩
end

/-- `SetDefault`. -/
theorem setDefault_sim {env : Env} {dv : Field → Val} {h : Mem} {P : MTgt} {t : Tgt} {fp : List Nat} (ho : Own h P t fp) (i : Int) :
    Follows h P fp (genSetDefault dv t i) (memSetDefault env dv (P, h) i) := by
  cases P with
  | leaf l p => obtain ⟨_, _, rfl, _⟩ := ho.owns; exact rfl
  | array i p => obtain ⟨_, _, _, _, rfl, _⟩ := ho.owns; exact rfl
  | map i p w => obtain ⟨_, _, _, _, _, _, _, _, _, rfl, _⟩ := ho.owns; exact rfl
  | union ts p => obtain ⟨_, _, _, _, rfl, _⟩ := ho.owns; exact rfl
  | bad p => obtain ⟨rfl, _⟩ := ho.owns; exact rfl
  | record fs p =>
    obtain ⟨⟨slots, tag, vs, rfl, hr, hs, hlen⟩, hn, ha⟩ := ho
    simp only [genSetDefault, memSetDefault]
    by_cases hneg : i < 0
    · rw [if_pos hneg, if_pos hneg]; exact rfl
    · rw [if_neg hneg, if_neg hneg]
      cases hf : fs[i.toNat]? with
      | none => exact rfl
      | some f =>
        simp only
        have hi : i.toNat < slots.length := by rw [hlen]; exact (List.getElem?_eq_some_iff.mp hf).1
        by_cases hd : f.dflt.isNone = true
        · rw [if_pos hd, if_pos hd]; exact rfl
        · rw [if_neg hd, if_neg hd]
          obtain ⟨l, f2, e1, e2, e3, e4⟩ := build_shows (env := env) (dv f) f.ty h
          obtain ⟨fp', r1, r2, r3, r4, r5, r6⟩ := struct_assign hr hs hn ha hi e2 e3 e4
          simp only [e1]
          exact ⟨rfl, fp', ⟨⟨_, tag, _, rfl, r1, r2, by simp [hlen]⟩, r3, r4⟩, r6, r5⟩
end Verif
