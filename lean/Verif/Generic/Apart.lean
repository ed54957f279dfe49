import Verif.Generic.Uses
/-
What a program can get at, and what it cannot.
-/
set_option linter.unusedVariables false
namespace Verif

/-- References in the objects of `S` and in the variables `vs` lead to `S`. -/
structure ClosedIn (S : Nat → Prop) (H : Heap) (vs : List HVal) : Prop where
  objs : ∀ a o, S a → H[a]? = some o → ∀ b, .ref b ∈ o.parts → S b
  vars : ∀ b, .ref b ∈ vs → S b

theorem ClosedIn.reached {S : Nat → Prop} {H : Heap} {vs : List HVal} (h : ClosedIn S H vs) {v : HVal} (hv : v ∈ vs) {a : Nat}
    (hr : Reached H v a) : S a := by
  induction hr with
  | here e => exact h.vars _ (e ▸ hv)
  | part _ h1 h2 ih => exact h.objs _ _ ih h1 _ h2

theorem ClosedIn.reaches {S : Nat → Prop} {W : World} (h : ClosedIn S W.heap W.held) {a : Nat} (hr : W.Reaches a) : S a := by
  obtain ⟨v, hv, hr⟩ := hr
  exact h.reached hv hr

theorem ClosedIn.push {S : Nat → Prop} {H : Heap} {l : List HVal} {o : Obj} (h : ClosedIn S H l)
    (ho : ∀ b, .ref b ∈ o.parts → S b) : ClosedIn S (H ++ [o]) l := by
  refine ⟨fun a o' ha hg b hb => ?_, h.vars⟩
  by_cases hlt : a < H.length
  · rw [List.getElem?_append_left hlt] at hg
    exact h.objs a o' ha hg b hb
  · have : a = H.length := by
      have := lt_of_get hg
      simp at this
      omega
    subst this
    rw [get_last] at hg
    cases hg
    exact ho b hb

theorem ClosedIn.sub {S : Nat → Prop} {H : Heap} {l l' : List HVal} (h : ClosedIn S H l) (hl : ∀ b, .ref b ∈ l' → S b) :
    ClosedIn S H l' := ⟨h.objs, hl⟩

section
variable {roots : Roots} {S : Nat → Prop}

mutual
theorem Build.closed (hr : ∀ j b, (j, .ref b) ∈ roots → S b) : ∀ {H g v H'}, Build roots H g v H' →
    (∀ a, H.length ≤ a → a < H'.length → S a) → ClosedIn S H [] → ClosedIn S H' [v]
  | _, _, _, _, .nil, _, hc => hc.sub (by simp)
  | _, _, _, _, .bool, _, hc => hc.sub (by simp)
  | _, _, _, _, .int, _, hc => hc.sub (by simp)
  | _, _, _, _, .long, _, hc => hc.sub (by simp)
  | _, _, _, _, .float, _, hc => hc.sub (by simp)
  | _, _, _, _, .double, _, hc => hc.sub (by simp)
  | _, _, _, _, .string, _, hc => hc.sub (by simp)
  | _, _, _, _, .symbol, _, hc => hc.sub (by simp)
  | _, _, _, _, .bytes, hn, hc =>
    (hc.push (by simp [Obj.parts])).sub fun b hb => by simp at hb; subst hb; exact hn _ (Nat.le_refl _) (by simp)
  | _, _, _, _, .list h, hn, hc => by
    have hg := h.grows.length_le
    have := BuildItems.closed hr h (fun a h1 h2 => hn a h1 (by simp; omega)) hc
    exact ((this.push (o := .list _) (fun b hb => this.vars b hb)).sub fun b hb => by
      simp at hb; subst hb; exact hn _ hg (by simp))
  | _, _, _, _, .map h, hn, hc => by
    have hg := h.grows.length_le
    have := BuildEntries.closed hr h (fun a h1 h2 => hn a h1 (by simp; omega)) hc
    exact ((this.push (o := .map _) (fun b hb => this.vars b hb)).sub fun b hb => by
      simp at hb; subst hb; exact hn _ hg (by simp))
  | _, _, _, _, .record h, hn, hc => by
    have hg := h.grows.length_le
    have := BuildFields.closed hr h (fun a h1 h2 => hn a h1 (by simp; omega)) hc
    exact ((this.push (o := .record _) (fun b hb => this.vars b hb)).sub fun b hb => by
      simp at hb; subst hb; exact hn _ hg (by simp))
  | _, _, _, _, .json h, _, hc => hc.sub fun b hb => by simp at hb; subst hb; exact hr _ _ h
theorem BuildItems.closed (hr : ∀ j b, (j, .ref b) ∈ roots → S b) : ∀ {H g vs H'}, BuildItems roots H g vs H' →
    (∀ a, H.length ≤ a → a < H'.length → S a) → ClosedIn S H [] → ClosedIn S H' vs
  | _, _, _, _, .nil, _, hc => hc
  | _, _, _, _, .cons h h', hn, hc => by
    have hg := h.grows.length_le
    have hg' := h'.grows.length_le
    have h1 := Build.closed hr h (fun a h1 h2 => hn a h1 (by omega)) hc
    have h2 := BuildItems.closed hr h' (fun a h1 h2 => hn a (by omega) h2) (h1.sub (by simp))
    refine h2.sub fun b hb => ?_
    rcases List.mem_cons.1 hb with e | hb
    · exact h1.vars b (by simp [e])
    · exact h2.vars b hb
theorem BuildEntries.closed (hr : ∀ j b, (j, .ref b) ∈ roots → S b) : ∀ {H g es H'}, BuildEntries roots H g es H' →
    (∀ a, H.length ≤ a → a < H'.length → S a) → ClosedIn S H [] → ClosedIn S H' (es.map (·.2))
  | _, _, _, _, .nil, _, hc => hc
  | _, _, _, _, .cons h h', hn, hc => by
    have hg := h.grows.length_le
    have hg' := h'.grows.length_le
    have h1 := Build.closed hr h (fun a h1 h2 => hn a h1 (by omega)) hc
    have h2 := BuildEntries.closed hr h' (fun a h1 h2 => hn a (by omega) h2) (h1.sub (by simp))
    refine h2.sub fun b hb => ?_
    rcases List.mem_cons.1 hb with e | hb
    · exact h1.vars b (by simp only at e; simp [e])
    · exact h2.vars b hb
theorem BuildFields.closed (hr : ∀ j b, (j, .ref b) ∈ roots → S b) : ∀ {H g es H'}, BuildFields roots H g es H' →
    (∀ a, H.length ≤ a → a < H'.length → S a) → ClosedIn S H [] → ClosedIn S H' (es.map (·.2))
  | _, _, _, _, .nil, _, hc => hc
  | _, _, _, _, .cons h h', hn, hc => by
    have hg := h.grows.length_le
    have hg' := h'.grows.length_le
    have h1 := Build.closed hr h (fun a h1 h2 => hn a h1 (by omega)) hc
    have h2 := BuildFields.closed hr h' (fun a h1 h2 => hn a (by omega) h2) (h1.sub (by simp))
    refine h2.sub fun b hb => ?_
    rcases List.mem_cons.1 hb with e | hb
    · exact h1.vars b (by simp only at e; simp [e])
    · exact h2.vars b hb
end
end

/-! ### The objects of the schema -/

/-- References lead into memory. -/
abbrev Tight (H : Heap) (l : List HVal) : Prop := ClosedIn (· < H.length) H l

theorem Tight.push {H : Heap} {l : List HVal} {o : Obj} (h : Tight H o.parts) :
    Tight (H ++ [o]) [.ref H.length] := by
  have h1 : ClosedIn (· < (H ++ [o]).length) H o.parts := by
    refine ⟨fun a o' ha hg b hb => ?_, fun b hb => ?_⟩
    · have := h.objs a o' (lt_of_get hg) hg b hb
      simp at this ⊢
      omega
    · have := h.vars b hb
      simp at this ⊢
      omega
  exact (h1.push h1.vars).sub fun b hb => by simp at hb; subst hb; simp

theorem Tight.grow {H H' : Heap} {l l' : List HVal} (h : Tight H l) (h' : Tight H' l') (hp : H <+: H') : Tight H' (l ++ l') := by
  refine h'.sub fun b hb => ?_
  rcases List.mem_append.1 hb with hb | hb
  · exact Nat.lt_of_lt_of_le (h.vars b hb) hp.length_le
  · exact h'.vars b hb

mutual
theorem loadJson_tight : ∀ (j : Json) (H : Heap), Tight H [] → Tight (loadJson j H).2 [(loadJson j H).1]
  | .null, H, h => h.sub (by simp [loadJson])
  | .bool _, H, h => h.sub (by simp [loadJson])
  | .num _, H, h => h.sub (by simp [loadJson])
  | .real _, H, h => h.sub (by simp [loadJson])
  | .str _, H, h => h.sub (by simp [loadJson])
  | .arr js, H, h => by
    simp only [loadJson]
    exact Tight.push (l := []) (o := .list _) (loadJsons_tight js H h)
  | .obj js, H, h => by
    simp only [loadJson]
    exact Tight.push (l := []) (o := .record _) (loadEntries_tight js H h)
theorem loadJsons_tight : ∀ (j : List Json) (H : Heap), Tight H [] → Tight (loadJsons j H).2 (loadJsons j H).1
  | [], H, h => h
  | j :: js, H, h => by
    have h1 := loadJson_tight j H h
    have h2 := loadJsons_tight js (loadJson j H).2 (h1.sub (by simp))
    simp only [loadJsons]
    exact h1.grow h2 (loadJsons_made js _).1
theorem loadEntries_tight : ∀ (j : List (Str × Json)) (H : Heap), Tight H [] →
    Tight (loadEntries j H).2 ((loadEntries j H).1.map (·.2))
  | [], H, h => h
  | (k, j) :: js, H, h => by
    have h1 := loadJson_tight j H h
    have h2 := loadEntries_tight js (loadJson j H).2 (h1.sub (by simp))
    simp only [loadEntries]
    exact h1.grow h2 (loadEntries_made js _).1
end

theorem loadAll_tight : ∀ (js : List Json) (H : Heap), Tight H [] → Tight (loadAll js H).2 []
  | [], H, h => h
  | j :: js, H, h => by
    simp only [loadAll]
    exact loadAll_tight js _ ((loadJson_tight j H h).sub (by simp))

section
variable {R : Type} {σ : Setting R} {r : Schema} {roots : Roots} {may : Nat → Prop} {S : Nat → Prop}

/-- Memory only grows. -/
theorem Act.len {W W' : World} (h : Act σ r roots may W W') : W.heap.length ≤ W'.heap.length := by
  cases h with
  | decode _ hb => exact hb.grows.length_le
  | make => simp
  | write => simp

theorem Acts.len {W W' : World} (h : Acts σ r roots may W W') : W.heap.length ≤ W'.heap.length := by
  induction h with
  | none => exact Nat.le_refl _
  | more _ h ih => exact Nat.le_trans ih h.len

/-- A program that has only what is in `S` gets nothing else, if new objects and the defaults are
in `S`. -/
theorem Act.closed (hr : ∀ j b, (j, .ref b) ∈ roots → S b) {W W' : World} (h : Act σ r roots may W W')
    (hn : ∀ a, W.heap.length ≤ a → a < W'.heap.length → S a) (hc : ClosedIn S W.heap W.held) : ClosedIn S W'.heap W'.held := by
  cases h with
  | decode hg hb =>
    have h1 := hb.closed hr hn (hc.sub (by simp))
    refine h1.sub fun b hm => ?_
    rcases List.mem_cons.1 hm with e | hm
    · exact h1.vars b (by simp [e])
    · exact hc.vars b hm
  | @make H held o ho =>
    refine (hc.push fun b hb => hc.reaches (ho b hb)).sub fun b hm => ?_
    rcases List.mem_cons.1 hm with e | hm
    · cases e; exact hn _ (Nat.le_refl _) (by simp)
    · exact hc.vars b hm
  | @write H held a o ha _ ho =>
    refine ⟨fun a' o' h1 h2 b hb => ?_, hc.vars⟩
    by_cases e : a = a'
    · subst e
      simp only [List.getElem?_set_self'] at h2
      cases hx : H[a]? with
      | none => rw [hx] at h2; cases h2
      | some x =>
        rw [hx] at h2
        cases h2
        exact hc.reaches (ho b hb)
    · simp only at h2
      rw [List.getElem?_set_ne e] at h2
      exact hc.objs a' o' h1 h2 b hb

/-- An object that was there and outside `S`, or that must not be written, is not changed. -/
theorem Act.same (hr : ∀ j b, (j, .ref b) ∈ roots → S b) {W W' : World} (h : Act σ r roots may W W')
    (hc : ClosedIn S W.heap W.held) {a : Nat} (hlt : a < W.heap.length) (ha : ¬S a ∨ ¬may a) : W'.heap[a]? = W.heap[a]? := by
  cases h with
  | decode hg hb => exact sameAt_prefix hb.grows (fp := [a]) (by simpa using hlt) a (by simp)
  | make => exact List.getElem?_append_left hlt
  | @write H held b o hb hm _ =>
    refine List.getElem?_set_ne ?_
    rintro rfl
    rcases ha with ha | ha
    · exact ha (hc.reaches hb)
    · exact ha hm

theorem Acts.closed_same (hr : ∀ j b, (j, .ref b) ∈ roots → S b) {W W' : World} (h : Acts σ r roots may W W')
    (hn : ∀ a, W.heap.length ≤ a → S a) (hc : ClosedIn S W.heap W.held) :
    ClosedIn S W'.heap W'.held ∧ ∀ a, a < W.heap.length → ¬S a ∨ ¬may a → W'.heap[a]? = W.heap[a]? := by
  induction h with
  | none => exact ⟨hc, fun _ _ _ => rfl⟩
  | @more W1 W2 h h' ih =>
    obtain ⟨h1, h2⟩ := ih
    refine ⟨h'.closed hr (fun a h3 _ => hn a (Nat.le_trans h.len h3)) h1, fun a h3 h4 => ?_⟩
    rw [h'.same hr h1 (Nat.lt_of_lt_of_le h3 h.len) h4, h2 a h3 h4]

/-- No reference leads outside memory. -/
theorem Acts.tight {n : Nat} (hr : ∀ j b, (j, .ref b) ∈ roots → b < n) {W W' : World} (h : Acts σ r roots may W W')
    (hle : n ≤ W.heap.length) (hc : ClosedIn (· < W.heap.length) W.heap W.held) : ClosedIn (· < W'.heap.length) W'.heap W'.held := by
  induction h with
  | none => exact hc
  | @more W1 W2 h h' ih =>
    have h1 := ih
    have hl := h.len
    have hl' := h'.len
    refine h'.closed (S := (· < W2.heap.length)) (fun j b hb => ?_) (fun a _ h2 => h2) ⟨fun a o ha ho b hb => ?_, fun b hb => ?_⟩
    · have := hr j b hb
      exact Nat.lt_of_lt_of_le this (by omega)
    · have := h1.objs a o (lt_of_get ho) ho b hb
      exact Nat.lt_of_lt_of_le this hl'
    · have := h1.vars b hb
      exact Nat.lt_of_lt_of_le this hl'
end
end Verif
