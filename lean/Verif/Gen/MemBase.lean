import Verif.Gen.Memory
/-
Paths and memory: what an assignment changes, and what shows a value still.
-/
namespace Verif
set_option linter.unusedSimpArgs false
set_option linter.unusedVariables false

/-! ### Paths -/

theorem Var.at_put_self {x : Var} : ∀ {p : List Nat} {v u : Var}, v.at p = some u → (v.put p x).at p = some x
  | [], v, u, _ => by simp [Var.put, Var.at]
  | i :: p, .struct tag fs, u, h => by
    simp only [Var.at] at h
    cases hi : fs[i]? with
    | none => rw [hi] at h; cases h
    | some w =>
      rw [hi] at h
      have hlt := (List.getElem?_eq_some_iff.mp hi).1
      simp only [Var.put, hi, Var.at, List.getElem?_set_self hlt]
      exact at_put_self h
  | _ :: _, .junk, _, h => by cases h
  | _ :: _, .prim _, _, h => by cases h
  | _ :: _, .nil, _, h => by cases h
  | _ :: _, .slice _ _, _, h => by cases h
  | _ :: _, .map _, _, h => by cases h
  | _ :: _, .ptr _, _, h => by cases h

theorem Var.put_put {x y : Var} : ∀ {p : List Nat} {v : Var}, (v.put p x).put p y = v.put p y
  | [], v => by simp [Var.put]
  | i :: p, .struct tag fs => by
    cases hi : fs[i]? with
    | none => simp only [Var.put, hi]
    | some w =>
      have hlt := (List.getElem?_eq_some_iff.mp hi).1
      simp only [Var.put, hi, List.getElem?_set_self hlt, put_put, List.set_set]
  | _ :: _, .junk => rfl
  | _ :: _, .prim _ => rfl
  | _ :: _, .nil => rfl
  | _ :: _, .slice _ _ => rfl
  | _ :: _, .map _ => rfl
  | _ :: _, .ptr _ => rfl

theorem Var.put_at : ∀ {p : List Nat} {v x : Var}, v.at p = some x → v.put p x = v
  | [], v, x, h => by simp only [Var.at, Option.some.injEq] at h; simp [Var.put, h]
  | i :: p, .struct tag fs, x, h => by
    simp only [Var.at] at h
    cases hi : fs[i]? with
    | none => rw [hi] at h; cases h
    | some w =>
      rw [hi] at h
      obtain ⟨hlt, he⟩ := List.getElem?_eq_some_iff.mp hi
      simp only [Var.put, hi, put_at h]
      rw [← he, List.set_getElem_self]
  | _ :: _, .junk, _, h => by cases h
  | _ :: _, .prim _, _, h => by cases h
  | _ :: _, .nil, _, h => by cases h
  | _ :: _, .slice _ _, _, h => by cases h
  | _ :: _, .map _, _, h => by cases h
  | _ :: _, .ptr _, _, h => by cases h

theorem Var.at_append {q : List Nat} : ∀ {p : List Nat} {v u : Var}, v.at p = some u → v.at (p ++ q) = u.at q
  | [], v, u, h => by simp only [Var.at, Option.some.injEq] at h; simp [h]
  | i :: p, .struct tag fs, u, h => by
    simp only [Var.at] at h
    simp only [List.cons_append, Var.at]
    cases hi : fs[i]? with
    | none => rw [hi] at h; cases h
    | some w => rw [hi] at h; exact at_append h
  | _ :: _, .junk, _, h => by cases h
  | _ :: _, .prim _, _, h => by cases h
  | _ :: _, .nil, _, h => by cases h
  | _ :: _, .slice _ _, _, h => by cases h
  | _ :: _, .map _, _, h => by cases h
  | _ :: _, .ptr _, _, h => by cases h

theorem Var.put_append {q : List Nat} {x : Var} : ∀ {p : List Nat} {v u : Var}, v.at p = some u →
    v.put (p ++ q) x = v.put p (u.put q x)
  | [], v, u, h => by simp only [Var.at, Option.some.injEq] at h; subst h; rfl
  | i :: p, .struct tag fs, u, h => by
    simp only [Var.at] at h
    simp only [List.cons_append, Var.put]
    cases hi : fs[i]? with
    | none => simp only [hi] at h; cases h
    | some w => rw [hi] at h; simp only [put_append h]
  | _ :: _, .junk, _, h => by cases h
  | _ :: _, .prim _, _, h => by cases h
  | _ :: _, .nil, _, h => by cases h
  | _ :: _, .slice _ _, _, h => by cases h
  | _ :: _, .map _, _, h => by cases h
  | _ :: _, .ptr _, _, h => by cases h

theorem Var.at_field {tag : BitVec 64} {fs : List Var} {i : Nat} : Var.at (.struct tag fs) [i] = fs[i]? := by
  simp only [Var.at]
  cases fs[i]? <;> rfl

theorem Var.put_field {tag : BitVec 64} {fs : List Var} {i : Nat} {x : Var} :
    Var.put (.struct tag fs) [i] x = .struct tag (fs.set i x) := by
  simp only [Var.put]
  cases hi : fs[i]? with
  | some v => rfl
  | none =>
    rw [List.set_eq_of_length_le]
    exact List.getElem?_eq_none_iff.mp hi

/-! ### Memory -/

theorem Mem.read_of {h : Mem} {p : Place} {v : Var} (hr : h.read p = some v) :
    ∃ o, h[p.id]? = some (.var o) ∧ o.at p.path = some v := by
  unfold Mem.read at hr
  split at hr
  · exact ⟨_, by assumption, hr⟩
  · cases hr

theorem Mem.read_eq {h : Mem} {p : Place} {o : Var} (ho : h[p.id]? = some (.var o)) : h.read p = o.at p.path := by
  simp only [Mem.read, ho]

theorem Mem.read_lt {h : Mem} {p : Place} {v : Var} (hr : h.read p = some v) : p.id < h.length := by
  obtain ⟨o, ho, _⟩ := Mem.read_of hr
  exact (List.getElem?_eq_some_iff.mp ho).1

theorem Mem.write_eq {h : Mem} {p : Place} {o x : Var} (ho : h[p.id]? = some (.var o)) :
    h.write p x = h.set p.id (.var (o.put p.path x)) := by
  simp only [Mem.write, ho]

theorem Mem.write_length {h : Mem} {p : Place} {x : Var} : (h.write p x).length = h.length := by
  unfold Mem.write
  split <;> simp

theorem Mem.write_self {h : Mem} {p : Place} {o x : Var} (ho : h[p.id]? = some (.var o)) :
    (h.write p x)[p.id]? = some (.var (o.put p.path x)) := by
  rw [Mem.write_eq ho, List.getElem?_set_self (List.getElem?_eq_some_iff.mp ho).1]

theorem Mem.write_other {h : Mem} {p : Place} {x : Var} {a : Nat} (ha : a ≠ p.id) : (h.write p x)[a]? = h[a]? := by
  unfold Mem.write
  split
  · exact List.getElem?_set_ne (Ne.symm ha)
  · rfl

theorem Mem.read_write {h : Mem} {p : Place} {v x : Var} (hr : h.read p = some v) : (h.write p x).read p = some x := by
  obtain ⟨o, ho, hv⟩ := Mem.read_of hr
  rw [Mem.read_eq (Mem.write_self ho)]
  exact Var.at_put_self hv

theorem List.set_same {α : Type} {l : List α} {i : Nat} {x : α} (h : l[i]? = some x) : l.set i x = l := by
  obtain ⟨hlt, rfl⟩ := List.getElem?_eq_some_iff.mp h
  exact List.set_getElem_self hlt

theorem Mem.write_same {h : Mem} {p : Place} {v : Var} (hr : h.read p = some v) : h.write p v = h := by
  obtain ⟨o, ho, hv⟩ := Mem.read_of hr
  rw [Mem.write_eq ho, Var.put_at hv]
  exact List.set_same ho

theorem Mem.read_congr {h h' : Mem} {p : Place} (ha : h'[p.id]? = h[p.id]?) : h'.read p = h.read p := by
  simp only [Mem.read, ha]

theorem Mem.read_append {h : Mem} {p : Place} {l : Mem} (hp : p.id < h.length) : Mem.read (h ++ l) p = h.read p :=
  Mem.read_congr (List.getElem?_append_left hp)

theorem Mem.get_append {h : Mem} {l : Mem} {a : Nat} (ha : a < h.length) : (h ++ l)[a]? = h[a]? :=
  List.getElem?_append_left ha

theorem Mem.get_new {h : Mem} {o : MObj} : (h ++ [o])[h.length]? = some o := by simp

/-! ### What a step may change -/

/-- From `h` to `h'`, only the variable at `q` and the objects `fp` have changed, and objects may have been added. -/
structure Chg (q : Place) (fp : List Nat) (h h' : Mem) : Prop where
  grows : h.length ≤ h'.length
  same : ∀ a, a < h.length → a ∉ fp → a ≠ q.id → h'[a]? = h[a]?
  here : ∃ o x u, h[q.id]? = some (.var o) ∧ o.at q.path = some u ∧ h'[q.id]? = some (.var (o.put q.path x))

/-- `fp'` consists of objects in `fp` and objects that are not in `h`. -/
def From (h : Mem) (fp fp' : List Nat) : Prop := ∀ a, a ∈ fp' → a ∈ fp ∨ h.length ≤ a

theorem From.refl {h : Mem} {fp : List Nat} : From h fp fp := fun _ ha => .inl ha

theorem From.nil {h : Mem} {fp : List Nat} : From h fp [] := fun _ ha => by cases ha

theorem From.trans {h h1 : Mem} {a b c : List Nat} (h1l : h.length ≤ h1.length) (hab : From h a b) (hbc : From h1 b c) :
    From h a c := by
  intro x hx
  rcases hbc x hx with hb | hb
  · exact hab x hb
  · exact .inr (Nat.le_trans h1l hb)

theorem Chg.refl {q : Place} {fp : List Nat} {h : Mem} {v : Var} (hr : h.read q = some v) : Chg q fp h h := by
  obtain ⟨o, ho, hv⟩ := Mem.read_of hr
  exact ⟨Nat.le_refl _, fun _ _ _ _ => rfl, o, v, v, ho, hv, by rw [Var.put_at hv]; exact ho⟩

theorem Chg.trans {q : Place} {fp fp1 : List Nat} {h h1 h2 : Mem} (a : Chg q fp h h1) (b : Chg q fp1 h1 h2)
    (hf : From h fp fp1) : Chg q fp h h2 := by
  refine ⟨Nat.le_trans a.grows b.grows, ?_, ?_⟩
  · intro x hx hn hq
    have h1x : x < h1.length := Nat.lt_of_lt_of_le hx a.grows
    rw [b.same x h1x ?_ hq, a.same x hx hn hq]
    intro hx1
    rcases hf x hx1 with h' | h'
    · exact hn h'
    · omega
  · obtain ⟨o, x, u, ho, hu, h1o⟩ := a.here
    obtain ⟨o2, x2, u2, ho2, hu2, h2o⟩ := b.here
    rw [h1o] at ho2
    simp only [Option.some.injEq, MObj.var.injEq] at ho2
    subst ho2
    exact ⟨o, x2, u, ho, hu, by rw [h2o, Var.put_put]⟩

theorem Chg.mono {q : Place} {fp fp1 : List Nat} {h h1 : Mem} (a : Chg q fp h h1) (hs : ∀ x ∈ fp, x ∈ fp1) : Chg q fp1 h h1 :=
  ⟨a.grows, fun x hx hn hq => a.same x hx (fun hm => hn (hs x hm)) hq, a.here⟩

theorem Chg.write {q : Place} {fp : List Nat} {h : Mem} {v x : Var} (hr : h.read q = some v) : Chg q fp h (h.write q x) := by
  obtain ⟨o, ho, hv⟩ := Mem.read_of hr
  exact ⟨by rw [Mem.write_length]; exact Nat.le_refl _, fun a _ _ ha => Mem.write_other ha, o, x, v, ho, hv, Mem.write_self ho⟩

theorem Chg.append {q : Place} {fp : List Nat} {h : Mem} {l : Mem} {v : Var} (hr : h.read q = some v) : Chg q fp h (h ++ l) := by
  obtain ⟨o, ho, hv⟩ := Mem.read_of hr
  have hlt := Mem.read_lt hr
  refine ⟨by simp, fun a ha _ _ => Mem.get_append ha, o, v, v, ho, hv, ?_⟩
  rw [Var.put_at hv, Mem.get_append hlt]; exact ho

theorem Chg.set {q : Place} {fp : List Nat} {h : Mem} {v : Var} {a : Nat} {o : MObj} (hr : h.read q = some v) (ha : a ∈ fp)
    (hne : a ≠ q.id) : Chg q fp h (h.set a o) := by
  obtain ⟨u, hu, hv⟩ := Mem.read_of hr
  refine ⟨by simp, ?_, u, v, v, hu, hv, ?_⟩
  · intro b _ hb _
    exact List.getElem?_set_ne (fun he : a = b => hb (he ▸ ha))
  · rw [Var.put_at hv, List.getElem?_set_ne hne]; exact hu

/-- The variable after the change. -/
theorem Chg.read {q : Place} {fp : List Nat} {h h' : Mem} (c : Chg q fp h h') : ∃ v, h'.read q = some v := by
  obtain ⟨o, x, u, ho, hu, h'o⟩ := c.here
  exact ⟨x, by rw [Mem.read_eq h'o]; exact Var.at_put_self hu⟩

/-- A change of a field of the struct at `p` is a change at `p`. -/
theorem Chg.up {p : Place} {i : Nat} {fp : List Nat} {h h' : Mem} {v : Var} (c : Chg (p.field i) fp h h') (hr : h.read p = some v) :
    Chg p fp h h' := by
  obtain ⟨o, ho, hv⟩ := Mem.read_of hr
  refine ⟨c.grows, c.same, ?_⟩
  obtain ⟨o2, x, u, ho2, hu, h'o⟩ := c.here
  have : h[p.id]? = some (.var o2) := ho2
  rw [ho] at this
  simp only [Option.some.injEq, MObj.var.injEq] at this
  subst this
  refine ⟨o, v.put [i] x, v, ho, hv, ?_⟩
  rw [← Var.put_append hv]
  exact h'o

/-- A change in an object that belongs to the variable at `p`. -/
theorem Chg.own {p q : Place} {fp fp1 : List Nat} {h h' : Mem} {v : Var} (c : Chg q fp h h') (hr : h.read p = some v)
    (hq : q.id ∈ fp1) (hne : p.id ≠ q.id) (hp : p.id ∉ fp) (hs : ∀ a ∈ fp, a ∈ fp1) : Chg p fp1 h h' := by
  obtain ⟨o, ho, hv⟩ := Mem.read_of hr
  refine ⟨c.grows, ?_, o, v, v, ho, hv, ?_⟩
  · intro a ha hn hap
    exact c.same a ha (fun hm => hn (hs a hm)) (fun he => hn (he ▸ hq))
  · rw [Var.put_at hv, c.same p.id (Mem.read_lt hr) hp hne]; exact ho

/-! The same when others use memory too: of the objects that were there, only those in `M` are known to be as they were. -/

/-- From `h` to `h'`, of the objects in `M`, only the variable at `q` and the objects `fp` have changed. -/
structure ChgM (M : Nat → Prop) (q : Place) (fp : List Nat) (h h' : Mem) : Prop where
  grows : h.length ≤ h'.length
  same : ∀ a, M a → a ∉ fp → a ≠ q.id → h'[a]? = h[a]?
  here : ∃ o x u, h[q.id]? = some (.var o) ∧ o.at q.path = some u ∧ h'[q.id]? = some (.var (o.put q.path x))

/-- `fp'` consists of objects in `fp` and objects that are not in `M`. -/
def FromM (M : Nat → Prop) (fp fp' : List Nat) : Prop := ∀ a, a ∈ fp' → a ∈ fp ∨ ¬ M a

/-- `M` and what has come into being since. -/
def Grown (M : Nat → Prop) (h h1 : Mem) : Nat → Prop := fun x => M x ∨ (h.length ≤ x ∧ x < h1.length)

theorem Chg.toM {M : Nat → Prop} {q : Place} {fp : List Nat} {h h' : Mem} (hM : ∀ x, M x → x < h.length) (c : Chg q fp h h') :
    ChgM M q fp h h' := ⟨c.grows, fun a ha => c.same a (hM a ha), c.here⟩

theorem From.toM {M : Nat → Prop} {fp fp' : List Nat} {h : Mem} (hM : ∀ x, M x → x < h.length) (f : From h fp fp') : FromM M fp fp' :=
  fun a ha => (f a ha).imp id (fun hl hm => Nat.lt_irrefl _ (Nat.lt_of_lt_of_le (hM a hm) hl))

theorem ChgM.toChg {q : Place} {fp : List Nat} {h h' : Mem} (c : ChgM (· < h.length) q fp h h') : Chg q fp h h' := ⟨c.grows, c.same, c.here⟩

theorem FromM.toFrom {fp fp' : List Nat} {h : Mem} (f : FromM (· < h.length) fp fp') : From h fp fp' :=
  fun a ha => (f a ha).imp id (fun hl => Nat.le_of_not_lt hl)

theorem FromM.nil {M : Nat → Prop} {fp : List Nat} : FromM M fp [] := fun _ ha => by cases ha

theorem FromM.refl {M : Nat → Prop} {fp : List Nat} : FromM M fp fp := fun _ ha => .inl ha

theorem FromM.trans {M M1 : Nat → Prop} {a b c : List Nat} (hM : ∀ x, M x → M1 x) (hab : FromM M a b) (hbc : FromM M1 b c) : FromM M a c := by
  intro x hx
  rcases hbc x hx with hb | hb
  · exact hab x hb
  · exact .inr (fun hm => hb (hM x hm))

theorem ChgM.trans {M M1 : Nat → Prop} {q : Place} {fp fp1 : List Nat} {h h1 h2 : Mem} (hM : ∀ x, M x → M1 x) (a : ChgM M q fp h h1)
    (b : ChgM M1 q fp1 h1 h2) (hf : FromM M fp fp1) : ChgM M q fp h h2 := by
  refine ⟨Nat.le_trans a.grows b.grows, ?_, ?_⟩
  · intro x hx hn hq
    rw [b.same x (hM x hx) ?_ hq, a.same x hx hn hq]
    intro hx1
    rcases hf x hx1 with h' | h'
    · exact hn h'
    · exact h' hx
  · obtain ⟨o, x, u, ho, hu, h1o⟩ := a.here
    obtain ⟨o2, x2, u2, ho2, hu2, h2o⟩ := b.here
    rw [h1o] at ho2
    simp only [Option.some.injEq, MObj.var.injEq] at ho2
    subst ho2
    exact ⟨o, x2, u, ho, hu, by rw [h2o, Var.put_put]⟩

theorem ChgM.mono {M : Nat → Prop} {q : Place} {fp fp1 : List Nat} {h h1 : Mem} (a : ChgM M q fp h h1) (hs : ∀ x ∈ fp, x ∈ fp1) :
    ChgM M q fp1 h h1 := ⟨a.grows, fun x hx hn hq => a.same x hx (fun hm => hn (hs x hm)) hq, a.here⟩

theorem ChgM.up {M : Nat → Prop} {p : Place} {i : Nat} {fp : List Nat} {h h' : Mem} {v : Var} (c : ChgM M (p.field i) fp h h')
    (hr : h.read p = some v) : ChgM M p fp h h' := by
  obtain ⟨o, ho, hv⟩ := Mem.read_of hr
  refine ⟨c.grows, c.same, ?_⟩
  obtain ⟨o2, x, u, ho2, hu, h'o⟩ := c.here
  have : h[p.id]? = some (.var o2) := ho2
  rw [ho] at this
  simp only [Option.some.injEq, MObj.var.injEq] at this
  subst this
  refine ⟨o, v.put [i] x, v, ho, hv, ?_⟩
  rw [← Var.put_append hv]
  exact h'o

theorem ChgM.own {M : Nat → Prop} {p q : Place} {fp fp1 : List Nat} {h h' : Mem} {v : Var} (c : ChgM M q fp h h') (hr : h.read p = some v)
    (hp1 : M p.id) (hq : q.id ∈ fp1) (hne : p.id ≠ q.id) (hp : p.id ∉ fp) (hs : ∀ a ∈ fp, a ∈ fp1) : ChgM M p fp1 h h' := by
  obtain ⟨o, ho, hv⟩ := Mem.read_of hr
  refine ⟨c.grows, ?_, o, v, v, ho, hv, ?_⟩
  · intro a ha hn hap
    exact c.same a ha (fun hm => hn (hs a hm)) (fun he => hn (he ▸ hq))
  · rw [Var.put_at hv, c.same p.id hp1 hp hne]; exact ho

theorem ChgM.read {M : Nat → Prop} {q : Place} {fp : List Nat} {h h' : Mem} (c : ChgM M q fp h h') : ∃ v, h'.read q = some v := by
  obtain ⟨o, x, u, ho, hu, h'o⟩ := c.here
  exact ⟨x, by rw [Mem.read_eq h'o]; exact Var.at_put_self hu⟩

/-! ### What shows a value still shows it -/

mutual
theorem VarShows.frame {h h' : Mem} : ∀ (x : Val) {v : Var} {fp : List Nat}, VarShows h x v fp →
    (∀ a ∈ fp, h'[a]? = h[a]?) → VarShows h' x v fp
  | .array xs, v, fp, hs, hf => by
    simp only [VarShows] at hs ⊢
    obtain ⟨a, cs, fps, rfl, ha, hx, rfl⟩ := hs
    exact ⟨a, cs, fps, rfl, by rw [hf a (by simp), ha], VarsShow.frame xs hx (fun b hb => hf b (by simp [hb])), rfl⟩
  | .map es, v, fp, hs, hf => by
    simp only [VarShows] at hs ⊢
    obtain ⟨a, cs, fps, rfl, ha, hx, rfl⟩ := hs
    exact ⟨a, cs, fps, rfl, by rw [hf a (by simp), ha], EntriesShow.frame es hx (fun b hb => hf b (by simp [hb])), rfl⟩
  | .record xs, v, fp, hs, hf => by
    simp only [VarShows] at hs ⊢
    obtain ⟨tag, vs, rfl, hx⟩ := hs
    exact ⟨tag, vs, rfl, VarsShow.frame xs hx hf⟩
  | .union tag x, v, fp, hs, hf => by
    simp only [VarShows] at hs ⊢
    rcases hs with ⟨vs, rfl, hx⟩ | ⟨a, vs, fps, rfl, ha, hx, rfl⟩
    · exact .inl ⟨vs, rfl, MemberShows.frame x hx hf⟩
    · exact .inr ⟨a, vs, fps, rfl, by rw [hf a (by simp), ha], MemberShows.frame x hx (fun b hb => hf b (by simp [hb])), rfl⟩
  | .nil, v, fp, hs, hf => by simpa only [VarShows] using hs
  | .null, v, fp, hs, hf => by simpa only [VarShows] using hs
  | .bool _, v, fp, hs, hf => by simpa only [VarShows] using hs
  | .int _, v, fp, hs, hf => by simpa only [VarShows] using hs
  | .long _, v, fp, hs, hf => by simpa only [VarShows] using hs
  | .float _, v, fp, hs, hf => by simpa only [VarShows] using hs
  | .double _, v, fp, hs, hf => by simpa only [VarShows] using hs
  | .bytes _, v, fp, hs, hf => by simpa only [VarShows] using hs
  | .string _, v, fp, hs, hf => by simpa only [VarShows] using hs
  | .fixed _, v, fp, hs, hf => by simpa only [VarShows] using hs
  | .enum _, v, fp, hs, hf => by simpa only [VarShows] using hs
theorem VarsShow.frame {h h' : Mem} : ∀ (xs : List Val) {vs : List Var} {fp : List Nat}, VarsShow h xs vs fp →
    (∀ a ∈ fp, h'[a]? = h[a]?) → VarsShow h' xs vs fp
  | [], vs, fp, hs, hf => by simpa only [VarsShow] using hs
  | x :: xs, vs, fp, hs, hf => by
    simp only [VarsShow] at hs ⊢
    obtain ⟨v, vs', f, g, rfl, h1, h2, rfl⟩ := hs
    exact ⟨v, vs', f, g, rfl, VarShows.frame x h1 (fun a ha => hf a (by simp [ha])),
      VarsShow.frame xs h2 (fun a ha => hf a (by simp [ha])), rfl⟩
theorem EntriesShow.frame {h h' : Mem} : ∀ (es : List (List Byte × Val)) {ms : List (List Byte × Var)} {fp : List Nat},
    EntriesShow h es ms fp → (∀ a ∈ fp, h'[a]? = h[a]?) → EntriesShow h' es ms fp
  | [], vs, fp, hs, hf => by simpa only [EntriesShow] using hs
  | (k, x) :: xs, vs, fp, hs, hf => by
    simp only [EntriesShow] at hs ⊢
    obtain ⟨v, vs', f, g, rfl, h1, h2, rfl⟩ := hs
    exact ⟨v, vs', f, g, rfl, VarShows.frame x h1 (fun a ha => hf a (by simp [ha])),
      EntriesShow.frame xs h2 (fun a ha => hf a (by simp [ha])), rfl⟩
theorem MemberShows.frame {h h' : Mem} : ∀ (x : Option Val) {tag : BitVec 64} {vs : List Var} {fp : List Nat},
    MemberShows h x tag vs fp → (∀ a ∈ fp, h'[a]? = h[a]?) → MemberShows h' x tag vs fp
  | none, tag, vs, fp, hs, hf => by simpa only [MemberShows] using hs
  | some x, tag, vs, fp, hs, hf => by
    simp only [MemberShows] at hs ⊢
    obtain ⟨j, v, hj, hv, h1⟩ := hs
    exact ⟨j, v, hj, hv, VarShows.frame x h1 hf⟩
end

mutual
/-- The objects a value is made of are in memory. -/
theorem VarShows.lt {h : Mem} : ∀ (x : Val) {v : Var} {fp : List Nat}, VarShows h x v fp → ∀ a ∈ fp, a < h.length
  | .array xs, v, fp, hs, b, hb => by
    simp only [VarShows] at hs
    obtain ⟨a, cs, fps, rfl, ha, hx, rfl⟩ := hs
    rcases List.mem_cons.mp hb with rfl | hb
    · exact (List.getElem?_eq_some_iff.mp ha).1
    · exact VarsShow.lt xs hx b hb
  | .map es, v, fp, hs, b, hb => by
    simp only [VarShows] at hs
    obtain ⟨a, cs, fps, rfl, ha, hx, rfl⟩ := hs
    rcases List.mem_cons.mp hb with rfl | hb
    · exact (List.getElem?_eq_some_iff.mp ha).1
    · exact EntriesShow.lt es hx b hb
  | .record xs, v, fp, hs, b, hb => by
    simp only [VarShows] at hs
    obtain ⟨tag, vs, rfl, hx⟩ := hs
    exact VarsShow.lt xs hx b hb
  | .union tag x, v, fp, hs, b, hb => by
    simp only [VarShows] at hs
    rcases hs with ⟨vs, rfl, hx⟩ | ⟨a, vs, fps, rfl, ha, hx, rfl⟩
    · exact MemberShows.lt x hx b hb
    · rcases List.mem_cons.mp hb with rfl | hb
      · exact (List.getElem?_eq_some_iff.mp ha).1
      · exact MemberShows.lt x hx b hb
  | .nil, v, fp, hs, b, hb => by simp only [VarShows] at hs; rw [hs.2] at hb; cases hb
  | .null, v, fp, hs, b, hb => by simp only [VarShows] at hs; rw [hs.2] at hb; cases hb
  | .bool _, v, fp, hs, b, hb => by simp only [VarShows] at hs; rw [hs.2] at hb; cases hb
  | .int _, v, fp, hs, b, hb => by simp only [VarShows] at hs; rw [hs.2] at hb; cases hb
  | .long _, v, fp, hs, b, hb => by simp only [VarShows] at hs; rw [hs.2] at hb; cases hb
  | .float _, v, fp, hs, b, hb => by simp only [VarShows] at hs; rw [hs.2] at hb; cases hb
  | .double _, v, fp, hs, b, hb => by simp only [VarShows] at hs; rw [hs.2] at hb; cases hb
  | .bytes _, v, fp, hs, b, hb => by simp only [VarShows] at hs; rw [hs.2] at hb; cases hb
  | .string _, v, fp, hs, b, hb => by simp only [VarShows] at hs; rw [hs.2] at hb; cases hb
  | .fixed _, v, fp, hs, b, hb => by simp only [VarShows] at hs; rw [hs.2] at hb; cases hb
  | .enum _, v, fp, hs, b, hb => by simp only [VarShows] at hs; rw [hs.2] at hb; cases hb
theorem VarsShow.lt {h : Mem} : ∀ (xs : List Val) {vs : List Var} {fp : List Nat}, VarsShow h xs vs fp → ∀ a ∈ fp, a < h.length
  | [], vs, fp, hs, b, hb => by simp only [VarsShow] at hs; rw [hs.2] at hb; cases hb
  | x :: xs, vs, fp, hs, b, hb => by
    simp only [VarsShow] at hs
    obtain ⟨v, vs', f, g, rfl, h1, h2, rfl⟩ := hs
    rcases List.mem_append.mp hb with hb | hb
    · exact VarShows.lt x h1 b hb
    · exact VarsShow.lt xs h2 b hb
theorem EntriesShow.lt {h : Mem} : ∀ (es : List (List Byte × Val)) {ms : List (List Byte × Var)} {fp : List Nat},
    EntriesShow h es ms fp → ∀ a ∈ fp, a < h.length
  | [], vs, fp, hs, b, hb => by simp only [EntriesShow] at hs; rw [hs.2] at hb; cases hb
  | (k, x) :: xs, vs, fp, hs, b, hb => by
    simp only [EntriesShow] at hs
    obtain ⟨v, vs', f, g, rfl, h1, h2, rfl⟩ := hs
    rcases List.mem_append.mp hb with hb | hb
    · exact VarShows.lt x h1 b hb
    · exact EntriesShow.lt xs h2 b hb
theorem MemberShows.lt {h : Mem} : ∀ (x : Option Val) {tag : BitVec 64} {vs : List Var} {fp : List Nat},
    MemberShows h x tag vs fp → ∀ a ∈ fp, a < h.length
  | none, tag, vs, fp, hs, b, hb => by simp only [MemberShows] at hs; rw [hs] at hb; cases hb
  | some x, tag, vs, fp, hs, b, hb => by
    simp only [MemberShows] at hs
    obtain ⟨j, v, hj, hv, h1⟩ := hs
    exact VarShows.lt x h1 b hb
end

/-- Only a fixed value is shown by one. -/
theorem VarShows.fixed {h : Mem} {x : Val} {v : Var} {fp : List Nat} {bs : List Byte} (hs : VarShows h x v fp)
    (hv : v = .prim (.fixed bs)) : x = .fixed bs := by
  subst hv
  cases x <;> simp_all [VarShows]

theorem VarsShow.length {h : Mem} : ∀ (xs : List Val) {vs : List Var} {fp : List Nat}, VarsShow h xs vs fp → vs.length = xs.length
  | [], vs, fp, hs => by simp only [VarsShow] at hs; rw [hs.1]; rfl
  | x :: xs, vs, fp, hs => by
    simp only [VarsShow] at hs
    obtain ⟨v, vs', f, g, rfl, h1, h2, rfl⟩ := hs
    simp [VarsShow.length xs h2]
end Verif
