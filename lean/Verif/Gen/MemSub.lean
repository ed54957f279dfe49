import Verif.Gen.MemOwn
/-
Sub-targets in memory: making them, and what their parent shows when they have been left.
-/
namespace Verif
set_option linter.unusedSimpArgs false
set_option linter.unusedVariables false

theorem VarShows.prim {h : Mem} {x y : Val} {fp : List Nat} (hs : VarShows h x (.prim y) fp) : x = y ∧ fp = [] := by
  cases x <;> simp_all [VarShows]

/-- A variable just made for a type, or one that is decoded into as it is. -/
def NewShows (env : Env) (h : Mem) (s : Option Val) (v : Var) (f : List Nat) : Ty → Prop
  | .null => v = .prim .null ∧ f = []
  | .array _ => ∃ a, v = .slice a 0 ∧ h[a]? = some (.var (.struct 0 [])) ∧ f = [a]
  | .map _ => ∃ a, v = .map a ∧ h[a]? = some (.map []) ∧ f = [a]
  | .union ts => if Ty.nullable (.union ts) then
      ∃ a, v = .ptr a ∧ h[a]? = some (.var (.struct 0 (List.replicate ts.length .junk))) ∧ f = [a]
    else v = .struct 0 (List.replicate ts.length .junk) ∧ f = []
  | .ref q => match env.find q with
    | none => v = .junk ∧ f = []
    | some d => match d.kind with
      | .record fs => v = .struct 0 (List.replicate fs.length .junk) ∧ f = []
      | _ => SlotShows h s v f
  | _ => SlotShows h s v f

theorem NewShows.frame {env : Env} {h h' : Mem} {s : Option Val} {v : Var} {f : List Nat} {t : Ty} (hs : NewShows env h s v f t)
    (hf : ∀ a ∈ f, h'[a]? = h[a]?) : NewShows env h' s v f t := by
  cases t with
  | array i =>
    obtain ⟨a, rfl, ha, rfl⟩ := hs
    exact ⟨a, rfl, by rw [hf a (by simp), ha], rfl⟩
  | map i =>
    obtain ⟨a, rfl, ha, rfl⟩ := hs
    exact ⟨a, rfl, by rw [hf a (by simp), ha], rfl⟩
  | union ts =>
    simp only [NewShows] at hs ⊢
    by_cases hu : Ty.nullable (.union ts) = true
    · rw [if_pos hu] at hs ⊢
      obtain ⟨a, rfl, ha, rfl⟩ := hs
      exact ⟨a, rfl, by rw [hf a (by simp), ha], rfl⟩
    · rw [if_neg hu] at hs ⊢
      exact hs
  | ref q =>
    simp only [NewShows] at hs ⊢
    cases hd : env.find q with
    | none => rw [hd] at hs; exact hs
    | some d =>
      simp only [hd] at hs ⊢
      cases hk : d.kind with
      | record fs => rw [hk] at hs; exact hs
      | enum _ _ => rw [hk] at hs; exact SlotShows.frame hs hf
      | fixed _ => rw [hk] at hs; exact SlotShows.frame hs hf
  | null => exact hs
  | _ => exact SlotShows.frame hs hf

theorem slotShows_junk {h : Mem} : SlotShows h none .junk [] := ⟨rfl, fun _ h => by cases h⟩

/-- `memNew` makes new objects only. -/
theorem new_shows {env : Env} {t : Ty} {h h1 : Mem} {v : Var} (hn : memNew env t h = (v, h1)) :
    ∃ l f, h1 = h ++ l ∧ NewShows env h1 none v f t ∧ f.Nodup ∧ ∀ a ∈ f, h.length ≤ a ∧ a < h1.length := by
  cases t with
  | array i =>
    simp only [memNew, Prod.mk.injEq] at hn
    obtain ⟨rfl, rfl⟩ := hn
    exact ⟨_, [h.length], rfl, ⟨_, rfl, Mem.get_new, rfl⟩, by simp, by simp⟩
  | map i =>
    simp only [memNew, Prod.mk.injEq] at hn
    obtain ⟨rfl, rfl⟩ := hn
    exact ⟨_, [h.length], rfl, ⟨_, rfl, Mem.get_new, rfl⟩, by simp, by simp⟩
  | union ts =>
    simp only [memNew] at hn
    by_cases hu : Ty.nullable (.union ts) = true
    · rw [if_pos hu] at hn
      simp only [Prod.mk.injEq] at hn
      obtain ⟨rfl, rfl⟩ := hn
      refine ⟨_, [h.length], rfl, ?_, by simp, by simp⟩
      simp only [NewShows]
      rw [if_pos hu]
      exact ⟨_, rfl, Mem.get_new, rfl⟩
    · rw [if_neg hu] at hn
      simp only [Prod.mk.injEq] at hn
      obtain ⟨rfl, rfl⟩ := hn
      refine ⟨[], [], by simp, ?_, by simp, by simp⟩
      simp [NewShows, hu]
  | ref q =>
    simp only [memNew] at hn
    simp only [NewShows]
    cases hd : env.find q with
    | none =>
      simp only [hd, Prod.mk.injEq] at hn
      obtain ⟨rfl, rfl⟩ := hn
      exact ⟨[], [], by simp, ⟨rfl, rfl⟩, by simp, by simp⟩
    | some d =>
      cases hk : d.kind with
      | record fs =>
        simp only [hd, hk, Prod.mk.injEq] at hn
        obtain ⟨rfl, rfl⟩ := hn
        exact ⟨[], [], by simp, by simp [hk], by simp, by simp⟩
      | enum _ _ =>
        simp only [hd, hk, Prod.mk.injEq] at hn
        obtain ⟨rfl, rfl⟩ := hn
        exact ⟨[], [], by simp, by simp only [hk]; exact slotShows_junk, by simp, by simp⟩
      | fixed _ =>
        simp only [hd, hk, Prod.mk.injEq] at hn
        obtain ⟨rfl, rfl⟩ := hn
        exact ⟨[], [], by simp, by simp only [hk]; exact slotShows_junk, by simp, by simp⟩
  | null =>
    simp only [memNew, Prod.mk.injEq] at hn
    obtain ⟨rfl, rfl⟩ := hn
    exact ⟨[], [], by simp, ⟨rfl, rfl⟩, by simp, by simp⟩
  | _ =>
    simp only [memNew, Prod.mk.injEq] at hn
    obtain ⟨rfl, rfl⟩ := hn
    exact ⟨[], [], by simp, (show SlotShows h none .junk [] from slotShows_junk), by simp, by simp⟩

/-- What was in the variable does not matter if it is made anew. -/
theorem NewShows.made {env : Env} {h : Mem} {s s' : Option Val} {v : Var} {f : List Nat} {t : Ty} (ht : t.made env = true)
    (hs : NewShows env h s v f t) : NewShows env h s' v f t := by
  cases t with
  | ref q =>
    simp only [NewShows, Ty.made] at hs ht ⊢
    cases hd : env.find q with
    | none => rw [hd] at hs; exact hs
    | some d =>
      simp only [hd] at hs ht ⊢
      cases hk : d.kind with
      | record fs => rw [hk] at hs; exact hs
      | enum _ _ => simp only [hk] at ht; cases ht
      | fixed _ => simp only [hk] at ht; cases ht
  | null => exact hs
  | array i => exact hs
  | map i => exact hs
  | union ts => exact hs
  | _ => cases ht

theorem NewShows.plain {env : Env} {h : Mem} {s : Option Val} {v : Var} {f : List Nat} {t : Ty} (ht : t.made env = false)
    (hs : SlotShows h s v f) : NewShows env h s v f t := by
  cases t with
  | ref q =>
    simp only [NewShows, Ty.made] at ht ⊢
    cases hd : env.find q with
    | none => rw [hd] at ht; cases ht
    | some d =>
      simp only [hd] at ht ⊢
      cases hk : d.kind with
      | record fs => rw [hk] at ht; cases ht
      | enum _ _ => exact hs
      | fixed _ => exact hs
  | null => cases ht
  | array i => cases ht
  | map i => cases ht
  | union ts => cases ht
  | _ => exact hs

/-- The target `S`, with the objects `f1`, is the one for the variable at `q`: it points to it, or to the union that it
points to. The variable's objects are `fq`. -/
def SubAt (q : Place) (h : Mem) (S : MTgt) (f1 fq : List Nat) : Prop :=
  (S.place = q ∧ fq = f1) ∨
  ∃ a ts, S = .union ts ⟨a, []⟩ ∧ h.read q = some (.ptr a) ∧ a ≠ q.id ∧ q.id ∉ f1 ∧ fq = a :: f1

theorem target_leaf {h : Mem} {q : Place} {l : Leaf} {s : Option Val} {v : Var} {f : List Nat} (hr : h.read q = some v)
    (hl : l ≠ .null) (hs : SlotShows h s v f) (hq : q.id ∉ f) (hf : f.Nodup) :
    Own h (.leaf l q) (.leaf l s) f ∧ SubAt q h (.leaf l q) f f ∧ Chg q f h h ∧ From h f f :=
  ⟨⟨⟨s, v, rfl, hr, by rw [if_neg hl]; exact hs⟩, hf, hq⟩, .inl ⟨rfl, rfl⟩, .refl hr, .refl⟩

/-- The target for a variable. -/
theorem target_sim {env : Env} {t : Ty} {h : Mem} {q : Place} {s : Option Val} {v : Var} {f : List Nat}
    (hs : NewShows env h s v f t) (hr : h.read q = some v) (hq : q.id ∉ f) (hf : f.Nodup) :
    ∃ S h1 f1 fq, memTarget env t q h = .ok (S, h1) ∧ Own h1 S (Tgt.new env t s) f1 ∧ SubAt q h1 S f1 fq ∧ Chg q f h h1 ∧
      From h f fq := by
  have hleaf : ∀ l, l ≠ .null → SlotShows h s v f →
      ∃ S h1 f1 fq, (Except.ok (MTgt.leaf l q, h) : Except Err MState) = .ok (S, h1) ∧ Own h1 S (.leaf l s) f1 ∧ SubAt q h1 S f1 fq ∧
        Chg q f h h1 ∧ From h f fq := fun l hl hs => by
    obtain ⟨h1, h2, h3, h4⟩ := target_leaf hr hl hs hq hf
    exact ⟨_, _, _, _, rfl, h1, h2, h3, h4⟩
  cases t with
  | null =>
    obtain ⟨rfl, rfl⟩ := hs
    exact ⟨.leaf .null q, h, [], [], by rw [memTarget, Mem.write_same hr], ⟨⟨s, _, rfl, hr, by rw [if_pos rfl]; exact ⟨rfl, rfl⟩⟩, by simp, by simp⟩,
      .inl ⟨rfl, rfl⟩, .refl hr, .refl⟩
  | array i =>
    obtain ⟨a, rfl, ha, rfl⟩ := hs
    exact ⟨_, _, [a], [a], rfl, ⟨⟨[], a, [], [], rfl, hr, ha, ⟨rfl, rfl⟩, rfl⟩, by simp, hq⟩, .inl ⟨rfl, rfl⟩, .refl hr, .refl⟩
  | map i =>
    obtain ⟨a, rfl, ha, rfl⟩ := hs
    have halt := (List.getElem?_eq_some_iff.mp ha).1
    have hqlt := Mem.read_lt hr
    refine ⟨.map i q h.length, _, [a, h.length], [a, h.length], rfl, ⟨?_, ?_, ?_⟩, .inl ⟨rfl, rfl⟩, .append hr, ?_⟩
    · refine ⟨false, [], some [], a, [], none, .nil, [], [], rfl, ?_, ?_, Mem.get_new, rfl, rfl, .inl ⟨rfl, rfl, rfl⟩, by simp, ?_, rfl⟩
      · rw [Mem.read_append hqlt]; exact hr
      · rw [Mem.get_append halt]; exact ha
      · intro m hm
        cases hm
        exact ⟨rfl, List.Pairwise.nil⟩
    · simp; omega
    · simp only [MTgt.place, List.mem_cons, List.not_mem_nil, or_false, not_or] at hq ⊢
      exact ⟨hq, by omega⟩
    · intro x hx
      simp only [List.mem_cons, List.not_mem_nil, or_false] at hx ⊢
      omega
  | union ts =>
    simp only [NewShows] at hs
    by_cases hu : Ty.nullable (.union ts) = true
    · rw [if_pos hu] at hs
      obtain ⟨a, rfl, ha, rfl⟩ := hs
      have hqa : a ≠ q.id := by simpa [eq_comm] using hq
      refine ⟨.union ts ⟨a, []⟩, h, [], [a], ?_, ⟨⟨0, none, _, _, rfl, ?_, SlotsShow.junk, by simp⟩, by simp, by simp⟩,
        .inr ⟨a, ts, rfl, hr, hqa, by simp, rfl⟩, .refl hr, .refl⟩
      · simp only [memTarget]; rw [if_pos hu, hr]
      · rw [Mem.read_eq ha]; rfl
    · rw [if_neg hu] at hs
      obtain ⟨rfl, rfl⟩ := hs
      refine ⟨.union ts q, h, [], [], ?_, ⟨⟨0, none, _, _, rfl, hr, SlotsShow.junk, by simp⟩, by simp, by simp⟩,
        .inl ⟨rfl, rfl⟩, .refl hr, .refl⟩
      simp only [memTarget]; rw [if_neg hu]
  | ref n =>
    simp only [NewShows, memTarget, Tgt.new] at hs ⊢
    cases hd : env.find n with
    | none =>
      rw [hd] at hs
      obtain ⟨rfl, rfl⟩ := hs
      exact ⟨_, _, [], [], rfl, ⟨⟨rfl, rfl, _, hr, fun _ h => by cases h⟩, by simp, by simp⟩, .inl ⟨rfl, rfl⟩, .refl hr, .refl⟩
    | some d =>
      rw [hd] at hs
      simp only at hs ⊢
      cases hk : d.kind with
      | record fs =>
        rw [hk] at hs
        obtain ⟨rfl, rfl⟩ := hs
        exact ⟨_, _, [], [], rfl, ⟨⟨_, 0, _, rfl, hr, SlotsShow.junk, by simp⟩, by simp, by simp⟩, .inl ⟨rfl, rfl⟩, .refl hr, .refl⟩
      | enum ss dd =>
        rw [hk] at hs
        exact hleaf _ (by simp) hs
      | fixed n =>
        rw [hk] at hs
        exact hleaf _ (by simp) hs
  | _ => exact hleaf _ (by simp) hs

/-- A sub-target has been left: what the variable shows. -/
theorem SubAt.closeM {M : Nat → Prop} {q : Place} {h1 h2 : Mem} {S : MTgt} {t t2 : Tgt} {f1 fq f2 : List Nat} (hs : SubAt q h1 S f1 fq)
    (hMq : M q.id) (ho : Own h1 S t f1) (hc : ChgM M S.place f1 h1 h2) (hf : FromM M f1 f2) (ho2 : Own h2 S t2 f2) :
    ∃ v fq2, h2.read q = some v ∧ SlotShows h2 t2.val v fq2 ∧ fq2.Nodup ∧ q.id ∉ fq2 ∧ FromM M fq fq2 ∧ ChgM M q fq h1 h2 ∧
      ∀ x ∈ fq2, x ∈ f2 ∨ x ∈ fq := by
  obtain ⟨v, fp', hr, hv, hn, hsub⟩ := ho2.shows
  rcases hs with ⟨rfl, rfl⟩ | ⟨a, ts, rfl, hq, hne, hqf, rfl⟩
  · exact ⟨v, fp', hr, hv, hn, fun h => ho2.away (hsub _ h), fun x hx => hf x (hsub x hx), hc, fun x hx => .inl (hsub x hx)⟩
  · have ho2' := ho2.owns
    obtain ⟨tag, sel, slots, vs, rfl, hr2, hsl, hlen⟩ := ho2'
    have hqlt := Mem.read_lt hq
    have hq2 : h2.read q = some (.ptr a) := by
      rw [Mem.read_congr (hc.same q.id hMq hqf (Ne.symm hne)), hq]
    have hpl : h2.read ⟨a, []⟩ = some (.struct tag vs) := hr2
    have hrv : v = .struct tag vs := by
      have : h2.read ⟨a, []⟩ = some v := hr
      rw [hpl] at this; cases this; rfl
    subst hrv
    have ha2 : h2[a]? = some (.var (.struct tag vs)) := by
      obtain ⟨o, ho, hv⟩ := Mem.read_of hpl
      simp only [Var.at, Option.some.injEq] at hv
      subst hv; exact ho
    have hqf2 : q.id ∉ fp' := by
      intro hm
      rcases hf _ (hsub _ hm) with h | h
      · exact hqf h
      · exact h hMq
    have halt : a < h1.length := by
      obtain ⟨o, _, _, ho, _⟩ := hc.here
      exact (List.getElem?_eq_some_iff.mp ho).1
    have hchg : ChgM M q (a :: f1) h1 h2 := hc.own hq hMq (by simp [MTgt.place]) (Ne.symm hne) hqf (fun x hx => by simp [hx])
    have hafp : a ∉ fp' := fun hm => ho2.away (hsub _ hm)
    cases hval : (Tgt.union ts tag sel slots).val with
    | none =>
      exact ⟨_, [], hq2, ⟨rfl, fun _ h => by cases h⟩, by simp, by simp, .nil, hchg, fun x hx => by cases hx⟩
    | some x =>
      obtain ⟨y, rfl⟩ : ∃ y, x = .union tag y := by
        cases sel with
        | none => simp only [Tgt.val, Option.some.injEq] at hval; exact ⟨_, hval.symm⟩
        | some j =>
          simp only [Tgt.val] at hval
          split at hval
          · simp only [Option.map_eq_some_iff] at hval
            obtain ⟨z, _, hz⟩ := hval
            exact ⟨_, hz.symm⟩
          · cases hval
      rw [hval] at hv
      simp only [SlotShows, VarShows] at hv
      have hm : MemberShows h2 y tag vs fp' := by
        rcases hv with ⟨vs', hvs, hm⟩ | ⟨_, _, _, hvs, _⟩
        · cases hvs; exact hm
        · cases hvs
      refine ⟨_, a :: fp', hq2, ?_, ?_, ?_, ?_, hchg, fun x hx => (List.mem_cons.mp hx).elim (fun h => .inr (by simp [h])) (fun h => .inl (hsub x h))⟩
      · simp only [SlotShows, VarShows]
        exact .inr ⟨a, vs, fp', rfl, ha2, hm, rfl⟩
      · exact List.nodup_cons.mpr ⟨hafp, hn⟩
      · simp only [List.mem_cons, not_or]
        exact ⟨Ne.symm hne, hqf2⟩
      · intro b hb
        rcases List.mem_cons.mp hb with rfl | hb
        · exact .inl (by simp)
        · rcases hf b (hsub b hb) with h | h
          · exact .inl (by simp [h])
          · exact .inr h

theorem SubAt.close {q : Place} {h1 h2 : Mem} {S : MTgt} {t t2 : Tgt} {f1 fq f2 : List Nat} (hs : SubAt q h1 S f1 fq) (hq : q.id < h1.length)
    (ho : Own h1 S t f1) (hc : Chg S.place f1 h1 h2) (hf : From h1 f1 f2) (ho2 : Own h2 S t2 f2) :
    ∃ v fq2, h2.read q = some v ∧ SlotShows h2 t2.val v fq2 ∧ fq2.Nodup ∧ q.id ∉ fq2 ∧ From h1 fq fq2 ∧ Chg q fq h1 h2 := by
  obtain ⟨v, fq2, c1, c2, c3, c4, c5, c6, _⟩ := hs.closeM (M := (· < h1.length)) hq ho (hc.toM (fun _ h => h)) (hf.toM (fun _ h => h)) ho2
  exact ⟨v, fq2, c1, c2, c3, c4, c5.toFrom, c6.toChg⟩

/-- A variable is decoded into: constructed if need be, and its target made. -/
theorem open_sim {env : Env} {t : Ty} {h : Mem} {q : Place} {s : Option Val} {v : Var} {f : List Nat}
    (hs : SlotShows h s v f) (hr : h.read q = some v) (hq : q.id ∉ f) (hf : f.Nodup) :
    ∃ S h1 f1 fq, memOpen env t q h = .ok (S, h1) ∧ Own h1 S (Tgt.new env t s) f1 ∧ SubAt q h1 S f1 fq ∧ Chg q f h h1 ∧ From h f fq := by
  unfold memOpen
  by_cases hm : t.made env = true
  · rw [if_pos hm]
    cases hn : memNew env t h with
    | mk v1 h1 =>
      obtain ⟨l, f0, rfl, h3, h4, h5⟩ := new_shows hn
      have hqlt := Mem.read_lt hr
      have hr1 : Mem.read (h ++ l) q = some v := by rw [Mem.read_append hqlt, hr]
      have hq0 : q.id ∉ f0 := fun hm => by have := h5 _ hm; omega
      have h3' : NewShows env (Mem.write (h ++ l) q v1) s v1 f0 t :=
        (h3.frame (fun a ha => Mem.write_other (fun he => hq0 (he ▸ ha)))).made hm
      obtain ⟨S, h6, f1, fq, e1, e2, e3, e4, e5⟩ := target_sim h3' (Mem.read_write hr1) hq0 h4
      refine ⟨S, h6, f1, fq, e1, e2, e3, ?_, ?_⟩
      · have hc : Chg q f h (Mem.write (h ++ l) q v1) :=
          (Chg.append (fp := f) hr).trans (Chg.write (fp := f) hr1) .refl
        exact hc.trans e4 (fun a ha => .inr (h5 a ha).1)
      · have hl : h.length ≤ (Mem.write (h ++ l) q v1).length := by rw [Mem.write_length]; simp
        exact From.trans hl (fun a ha => .inr (h5 a ha).1) e5
  · rw [if_neg hm]
    exact target_sim (NewShows.plain (by simpa using hm) hs) hr hq hf

/-! ### The parent -/

/-- How two calls that make a sub-target of `P` correspond: the sub-targets do, and when the sub-target has become `t2`,
`P` stands for `k t2`; others may have used memory in the meantime, but not the objects in `M`. -/
def SubSim (h : Mem) (P : MTgt) (fp : List Nat) (k : Tgt → Tgt) : Except Err Tgt → Except Err MState → Prop
  | .error e, .error e' => e = e'
  | .ok s, .ok (S, h1) => ∃ f1, Own h1 S s f1 ∧ h.length ≤ h1.length ∧
      (S.place.id = P.place.id ∨ S.place.id ∈ fp ∨ h.length ≤ S.place.id) ∧ From h fp f1 ∧
      (∀ a, a < h.length → a ∉ fp → a ≠ P.place.id → h1[a]? = h[a]?) ∧
      ∀ M : Nat → Prop, (∀ x, M x → x < h.length) → M P.place.id → (∀ x ∈ fp, M x) →
      ∀ h2 t2 f2, ChgM (Grown M h h1) S.place f1 h1 h2 → FromM (Grown M h h1) f1 f2 → Own h2 S t2 f2 →
      ∃ fp', Own h2 P (k t2) fp' ∧ ChgM M P.place fp h h2 ∧ FromM M fp fp' ∧ ∀ x ∈ fp', x ∈ f2 ∨ Grown M h h1 x
  | _, _ => False

/-- How two calls that change the target `P` correspond. -/
def Follows (h : Mem) (P : MTgt) (fp : List Nat) : Except Err Tgt → Except Err MState → Prop
  | .error e, .error e' => e = e'
  | .ok t, .ok (P', h') => P' = P ∧ ∃ fp', Own h' P t fp' ∧ Chg P.place fp h h' ∧ From h fp fp'
  | _, _ => False

theorem ChgM.struct {M : Nat → Prop} {p : Place} {i : Nat} {f : List Nat} {h h2 : Mem} {tag : BitVec 64} {vs : List Var} {v2 : Var}
    (hc : ChgM M (p.field i) f h h2) (hr : h.read p = some (.struct tag vs)) (hr2 : h2.read (p.field i) = some v2) :
    h2.read p = some (.struct tag (vs.set i v2)) := by
  obtain ⟨o, ho, hv⟩ := Mem.read_of hr
  obtain ⟨o1, x, u, ho1, hu, h2o⟩ := hc.here
  have : h[p.id]? = some (.var o1) := ho1
  rw [ho] at this
  simp only [Option.some.injEq, MObj.var.injEq] at this
  subst this
  have hx : x = v2 := by
    rw [Mem.read_eq h2o, Var.at_put_self hu] at hr2
    exact Option.some.inj hr2
  subst hx
  have h2p : h2[p.id]? = some (.var (o.put (p.path ++ [i]) x)) := h2o
  rw [Mem.read_eq h2p, Var.put_append hv, Var.put_field]
  exact Var.at_put_self hv

theorem read_field {p : Place} {i : Nat} {h : Mem} {tag : BitVec 64} {vs : List Var} {v : Var}
    (hr : h.read p = some (.struct tag vs)) (hv : vs[i]? = some v) : h.read (p.field i) = some v := by
  obtain ⟨o, ho, hu⟩ := Mem.read_of hr
  have : h.read (p.field i) = o.at (p.path ++ [i]) := Mem.read_eq (p := p.field i) ho
  rw [this, Var.at_append hu, Var.at_field, hv]

/-- A field of a struct is changed. -/
theorem struct_changeM {M : Nat → Prop} {h h2 : Mem} {p : Place} {tag : BitVec 64} {vs : List Var} {slots : List (Option Val)} {fp f g : List Nat} {i : Nat}
    (hr : h.read p = some (.struct tag vs)) (hs : SlotsShow h slots vs fp) (hn : fp.Nodup) (ha : p.id ∉ fp)
    (hM : ∀ x ∈ fp, M x) (hperm : fp.Perm (f ++ g))
    (hw : ∀ h' s' v' f', (∀ a ∈ g, h'[a]? = h[a]?) → SlotShows h' s' v' f' →
        ∃ fp', SlotsShow h' (slots.set i s') (vs.set i v') fp' ∧ fp'.Perm (f' ++ g))
    (hc : ChgM M (p.field i) f h h2) {s2 : Option Val} {v2 : Var} {f2 : List Nat} (hr2 : h2.read (p.field i) = some v2)
    (hs2 : SlotShows h2 s2 v2 f2) (hn2 : f2.Nodup) (ha2 : p.id ∉ f2) (hf : FromM M f f2) :
    ∃ fp', h2.read p = some (.struct tag (vs.set i v2)) ∧ SlotsShow h2 (slots.set i s2) (vs.set i v2) fp' ∧ fp'.Nodup ∧ p.id ∉ fp' ∧
      FromM M fp fp' ∧ ChgM M p fp h h2 ∧ ∀ x ∈ fp', x ∈ f2 ∨ x ∈ fp := by
  have hnd := List.nodup_append.mp (hperm.nodup_iff.mp hn)
  have hlt := hs.lt
  have hg : ∀ a ∈ g, h2[a]? = h[a]? := by
    intro a hag
    have hafp : a ∈ fp := hperm.mem_iff.mpr (List.mem_append_right _ hag)
    refine hc.same a (hM a hafp) (fun hm => hnd.2.2 a hm a hag rfl) ?_
    intro he
    exact ha (show p.id ∈ fp from (show a = p.id from he) ▸ hafp)
  obtain ⟨fp', e1, e2⟩ := hw h2 s2 v2 f2 hg hs2
  have hdis : ∀ a ∈ f2, ∀ b ∈ g, a ≠ b := by
    rintro a h1 b h2' rfl
    rcases hf a h1 with h | h
    · exact hnd.2.2 a h a h2' rfl
    · exact h (hM a (hperm.mem_iff.mpr (List.mem_append_right _ h2')))
  refine ⟨fp', hc.struct hr hr2, e1, ?_, ?_, ?_, ?_, fun x hx => (List.mem_append.mp (e2.mem_iff.mp hx)).imp id
    (fun h => hperm.mem_iff.mpr (List.mem_append_right _ h))⟩
  · exact e2.nodup_iff.mpr (List.nodup_append.mpr ⟨hn2, hnd.2.1, hdis⟩)
  · intro hm
    rcases List.mem_append.mp (e2.mem_iff.mp hm) with h | h
    · exact ha2 h
    · exact ha (hperm.mem_iff.mpr (List.mem_append_right _ h))
  · intro a hm
    rcases List.mem_append.mp (e2.mem_iff.mp hm) with h | h
    · rcases hf a h with h | h
      · exact .inl (hperm.mem_iff.mpr (List.mem_append_left _ h))
      · exact .inr h
    · exact .inl (hperm.mem_iff.mpr (List.mem_append_right _ h))
  · exact (hc.up hr).mono (fun x hx => hperm.mem_iff.mpr (List.mem_append_left _ hx))

theorem struct_change {h h2 : Mem} {p : Place} {tag : BitVec 64} {vs : List Var} {slots : List (Option Val)} {fp f g : List Nat} {i : Nat}
    (hr : h.read p = some (.struct tag vs)) (hs : SlotsShow h slots vs fp) (hn : fp.Nodup) (ha : p.id ∉ fp)
    (hperm : fp.Perm (f ++ g))
    (hw : ∀ h' s' v' f', (∀ a ∈ g, h'[a]? = h[a]?) → SlotShows h' s' v' f' →
        ∃ fp', SlotsShow h' (slots.set i s') (vs.set i v') fp' ∧ fp'.Perm (f' ++ g))
    (hc : Chg (p.field i) f h h2) {s2 : Option Val} {v2 : Var} {f2 : List Nat} (hr2 : h2.read (p.field i) = some v2)
    (hs2 : SlotShows h2 s2 v2 f2) (hn2 : f2.Nodup) (ha2 : p.id ∉ f2) (hf : From h f f2) :
    ∃ fp', h2.read p = some (.struct tag (vs.set i v2)) ∧ SlotsShow h2 (slots.set i s2) (vs.set i v2) fp' ∧ fp'.Nodup ∧ p.id ∉ fp' ∧
      From h fp fp' ∧ Chg p fp h h2 := by
  obtain ⟨fp', c1, c2, c3, c4, c5, c6, _⟩ := struct_changeM (M := (· < h.length)) hr hs hn ha hs.lt hperm hw (hc.toM (fun _ h => h)) hr2 hs2 hn2 ha2
    (hf.toM (fun _ h => h))
  exact ⟨fp', c1, c2, c3, c4, c5.toFrom, c6.toChg⟩

theorem SubAt.lt {q : Place} {h : Mem} {S : MTgt} {t : Tgt} {f1 fq : List Nat} (hs : SubAt q h S f1 fq) (ho : Own h S t f1) :
    ∀ x ∈ fq, x < h.length := by
  rcases hs with ⟨_, rfl⟩ | ⟨a, ts, rfl, _, _, _, rfl⟩
  · exact ho.lt
  · intro x hx
    rcases List.mem_cons.mp hx with rfl | hx
    · obtain ⟨v, hr⟩ := ho.owns.read
      exact Mem.read_lt hr
    · exact ho.lt x hx

/-- A field of a struct is decoded into. -/
theorem struct_sub {env : Env} {t : Ty} {h : Mem} {p : Place} {tag : BitVec 64} {vs : List Var} {slots : List (Option Val)} {fp : List Nat}
    {i : Nat} (hr : h.read p = some (.struct tag vs)) (hs : SlotsShow h slots vs fp) (hn : fp.Nodup) (ha : p.id ∉ fp)
    (hi : i < slots.length) :
    ∃ S h1 f1, memOpen env t (p.field i) h = .ok (S, h1) ∧ Own h1 S (Tgt.new env t (slotAt slots i)) f1 ∧ h.length ≤ h1.length ∧
      (S.place.id = p.id ∨ S.place.id ∈ fp ∨ h.length ≤ S.place.id) ∧ From h fp f1 ∧
      (∀ a, a < h.length → a ∉ fp → a ≠ p.id → h1[a]? = h[a]?) ∧
      ∀ M : Nat → Prop, (∀ x, M x → x < h.length) → M p.id → (∀ x ∈ fp, M x) →
      ∀ h2 t2 f2, ChgM (Grown M h h1) S.place f1 h1 h2 → FromM (Grown M h h1) f1 f2 → Own h2 S t2 f2 →
        ∃ v2 fp', h2.read p = some (.struct tag (vs.set i v2)) ∧ SlotsShow h2 (slots.set i t2.val) (vs.set i v2) fp' ∧ fp'.Nodup ∧
          p.id ∉ fp' ∧ FromM M fp fp' ∧ ChgM M p fp h h2 ∧ ∀ x ∈ fp', x ∈ f2 ∨ Grown M h h1 x := by
  obtain ⟨v, f, g, e1, e2, e3, e4⟩ := hs.focus hi
  have hnd := List.nodup_append.mp (e3.nodup_iff.mp hn)
  have hq : (p.field i).id ∉ f := fun hm => ha (e3.mem_iff.mpr (List.mem_append_left _ hm))
  obtain ⟨S, h1, f1, fq, o1, o2, o3, o4, o5⟩ := open_sim (env := env) (t := t) e2 (read_field hr e1) hq hnd.1
  have hffp : ∀ x ∈ f, x ∈ fp := fun x hx => e3.mem_iff.mpr (List.mem_append_left _ hx)
  have hfq : ∀ x ∈ fq, x ∈ fp ∨ h.length ≤ x := fun x hx => (o5 x hx).imp (hffp x) id
  refine ⟨S, h1, f1, o1, o2, o4.grows, ?_, ?_, ?_, ?_⟩
  · rcases o3 with ⟨hp, _⟩ | ⟨a, ts, rfl, _, _, _, rfl⟩
    · rw [hp]; exact .inl rfl
    · exact .inr (hfq a (by simp))
  · rcases o3 with ⟨_, rfl⟩ | ⟨a, ts, rfl, _, _, _, rfl⟩
    · exact hfq
    · exact fun x hx => hfq x (by simp [hx])
  · exact fun a h1 h2 h3 => o4.same a h1 (fun hm => h2 (hffp a hm)) h3
  intro M hM hMp hMfp h2 t2 f2 hc hf ho
  have hM1 : ∀ x, M x → Grown M h h1 x := fun x hx => .inl hx
  obtain ⟨v2, fq2, c1, c2, c3, c4, c5, c6, c7⟩ := o3.closeM (M := Grown M h h1) (.inl hMp) o2 hc hf ho
  obtain ⟨fp', r1, r2, r3, r4, r5, r6, r7⟩ := struct_changeM hr hs hn ha hMfp e3 e4 ((o4.toM hM).trans hM1 c6 (o5.toM hM)) c1 c2 c3 c4
    (FromM.trans hM1 (o5.toM hM) c5)
  refine ⟨v2, fp', r1, r2, r3, r4, r5, r6, fun x hx => ?_⟩
  rcases r7 x hx with h' | h'
  · rcases c7 x h' with h' | h'
    · exact .inl h'
    · rcases hfq x h' with h'' | h''
      · exact .inr (.inl (hMfp x h''))
      · exact .inr (.inr ⟨h'', o3.lt o2 x h'⟩)
  · exact .inr (.inl (hMfp x h'))

/-- `Get`. -/
theorem get_sim {re : Env} {h : Mem} {P : MTgt} {t : Tgt} {fp : List Nat} (ho : Own h P t fp) (i : Int) :
    SubSim h P fp (fun s => genPut t i s) (genGet re t i) (memGet re (P, h) i) := by
  obtain ⟨ho, hn, ha⟩ := ho
  cases P with
  | record fs p =>
    obtain ⟨slots, tag, vs, rfl, hr, hs, hlen⟩ := ho
    simp only [genGet, memGet]
    by_cases hneg : i < 0
    · rw [if_pos hneg, if_pos hneg]; exact rfl
    · rw [if_neg hneg, if_neg hneg]
      cases hf : fs[i.toNat]? with
      | none => exact rfl
      | some f =>
        have hi : i.toNat < slots.length := by rw [hlen]; exact (List.getElem?_eq_some_iff.mp hf).1
        obtain ⟨S, h1, f1, e1, e2, g1, g2, g3, g4, e3⟩ := struct_sub (env := re) (t := f.ty) hr hs hn ha hi
        simp only [e1]
        refine ⟨f1, e2, g1, g2, g3, g4, ?_⟩
        intro M m1 m2 m3 h2 t2 f2 c1 c2 c3
        obtain ⟨v2, fp', r1, r2, r3, r4, r5, r6, r7⟩ := e3 M m1 m2 m3 h2 t2 f2 c1 c2 c3
        exact ⟨fp', ⟨⟨_, tag, _, rfl, r1, r2, by simp [hlen]⟩, r3, r4⟩, r6, r5, r7⟩
  | union ts p =>
    obtain ⟨tag, sel, slots, vs, rfl, hr, hs, hlen⟩ := ho
    simp only [genGet, memGet]
    by_cases hneg : i < 0
    · rw [if_pos hneg, if_pos hneg]; exact rfl
    · rw [if_neg hneg, if_neg hneg]
      cases hf : ts[i.toNat]? with
      | none => exact rfl
      | some f =>
        have hi : i.toNat < slots.length := by rw [hlen]; exact (List.getElem?_eq_some_iff.mp hf).1
        obtain ⟨S, h1, f1, e1, e2, g1, g2, g3, g4, e3⟩ := struct_sub (env := re) (t := f) hr hs hn ha hi
        simp only [e1]
        refine ⟨f1, e2, g1, g2, g3, g4, ?_⟩
        intro M m1 m2 m3 h2 t2 f2 c1 c2 c3
        obtain ⟨v2, fp', r1, r2, r3, r4, r5, r6, r7⟩ := e3 M m1 m2 m3 h2 t2 f2 c1 c2 c3
        exact ⟨fp', ⟨⟨tag, _, _, _, rfl, r1, r2, by simp [hlen]⟩, r3, r4⟩, r6, r5, r7⟩
  | leaf l p => obtain ⟨s, v, rfl, _⟩ := ho; exact rfl
  | array it p => obtain ⟨items, a, cs, fps, rfl, _⟩ := ho; exact rfl
  | map it p w => obtain ⟨hinted, pend, cur, a, es, keys, vals, U, fv, rfl, _⟩ := ho; exact rfl
  | bad p => obtain ⟨rfl, _⟩ := ho; exact rfl
end Verif
