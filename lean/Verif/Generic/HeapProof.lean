import Verif.Generic.Heap
/-
Lemmas about values in memory.
-/
set_option linter.unusedVariables false
namespace Verif

/-! ### What a value is made of -/

/-- The heaps agree on the addresses `fp`. -/
def SameAt (H H' : Heap) (fp : List Nat) : Prop := ∀ a ∈ fp, H'[a]? = H[a]?

theorem SameAt.left {H H' : Heap} {l l' : List Nat} (h : SameAt H H' (l ++ l')) : SameAt H H' l :=
  fun a ha => h a (List.mem_append_left _ ha)
theorem SameAt.right {H H' : Heap} {l l' : List Nat} (h : SameAt H H' (l ++ l')) : SameAt H H' l' :=
  fun a ha => h a (List.mem_append_right _ ha)
theorem SameAt.tail {H H' : Heap} {a : Nat} {l : List Nat} (h : SameAt H H' (a :: l)) : SameAt H H' l :=
  fun b hb => h b (List.mem_cons_of_mem _ hb)

theorem sameAt_append {H X : Heap} {fp : List Nat} (h : ∀ a ∈ fp, a < H.length) : SameAt H (H ++ X) fp :=
  fun a ha => by rw [List.getElem?_append_left (h a ha)]

theorem sameAt_set {H : Heap} {fp : List Nat} {a : Nat} {o : Obj} (h : a ∉ fp) : SameAt H (H.set a o) fp := by
  intro b hb
  rw [List.getElem?_set_ne]
  intro e
  exact h (e ▸ hb)

section
variable {H H' : Heap}

mutual
theorem JsonMadeOf.same : ∀ {j v fp}, JsonMadeOf H j v fp → SameAt H H' fp → JsonMadeOf H' j v fp
  | .null, v, fp, h, _ => by simpa only [JsonMadeOf] using h
  | .bool _, v, fp, h, _ => by simpa only [JsonMadeOf] using h
  | .num _, v, fp, h, _ => by simpa only [JsonMadeOf] using h
  | .real _, v, fp, h, _ => by simpa only [JsonMadeOf] using h
  | .str _, v, fp, h, _ => by simpa only [JsonMadeOf] using h
  | .arr js, v, fp, h, hs => by
    simp only [JsonMadeOf] at h ⊢
    obtain ⟨a, vs, fps, rfl, h1, h2, rfl⟩ := h
    exact ⟨a, vs, fps, rfl, by rw [hs a (by simp), h1], JsonsMadeOf.same h2 hs.tail, rfl⟩
  | .obj kvs, v, fp, h, hs => by
    simp only [JsonMadeOf] at h ⊢
    obtain ⟨a, vs, fps, rfl, h1, h2, rfl⟩ := h
    exact ⟨a, vs, fps, rfl, by rw [hs a (by simp), h1], JsonEntriesMadeOf.same h2 hs.tail, rfl⟩
theorem JsonsMadeOf.same : ∀ {js vs fp}, JsonsMadeOf H js vs fp → SameAt H H' fp → JsonsMadeOf H' js vs fp
  | [], vs, fp, h, _ => by simpa only [JsonsMadeOf] using h
  | j :: js, vs, fp, h, hs => by
    simp only [JsonsMadeOf] at h ⊢
    obtain ⟨v, vs', fp1, fp2, rfl, h1, h2, rfl⟩ := h
    exact ⟨v, vs', fp1, fp2, rfl, JsonMadeOf.same h1 hs.left, JsonsMadeOf.same h2 hs.right, rfl⟩
theorem JsonEntriesMadeOf.same : ∀ {js vs fp}, JsonEntriesMadeOf H js vs fp → SameAt H H' fp → JsonEntriesMadeOf H' js vs fp
  | [], vs, fp, h, _ => by simpa only [JsonEntriesMadeOf] using h
  | (k, j) :: js, vs, fp, h, hs => by
    simp only [JsonEntriesMadeOf] at h ⊢
    obtain ⟨v, vs', fp1, fp2, rfl, h1, h2, rfl⟩ := h
    exact ⟨v, vs', fp1, fp2, rfl, JsonMadeOf.same h1 hs.left, JsonEntriesMadeOf.same h2 hs.right, rfl⟩
end

mutual
theorem MadeOf.same : ∀ {g v fp}, MadeOf H g v fp → SameAt H H' fp → MadeOf H' g v fp
  | .nil, v, fp, h, _ => by simpa only [MadeOf] using h
  | .bool _, v, fp, h, _ => by simpa only [MadeOf] using h
  | .int _, v, fp, h, _ => by simpa only [MadeOf] using h
  | .long _, v, fp, h, _ => by simpa only [MadeOf] using h
  | .float _, v, fp, h, _ => by simpa only [MadeOf] using h
  | .double _, v, fp, h, _ => by simpa only [MadeOf] using h
  | .string _, v, fp, h, _ => by simpa only [MadeOf] using h
  | .symbol _, v, fp, h, _ => by simpa only [MadeOf] using h
  | .bytes bs, v, fp, h, hs => by
    simp only [MadeOf] at h ⊢
    obtain ⟨a, rfl, h1, rfl⟩ := h
    exact ⟨a, rfl, by rw [hs a (by simp), h1], rfl⟩
  | .list js, v, fp, h, hs => by
    simp only [MadeOf] at h ⊢
    obtain ⟨a, vs, fps, rfl, h1, h2, rfl⟩ := h
    exact ⟨a, vs, fps, rfl, by rw [hs a (by simp), h1], ItemsMadeOf.same h2 hs.tail, rfl⟩
  | .map kvs, v, fp, h, hs => by
    simp only [MadeOf] at h ⊢
    obtain ⟨a, vs, fps, rfl, h1, h2, rfl⟩ := h
    exact ⟨a, vs, fps, rfl, by rw [hs a (by simp), h1], EntriesMadeOf.same h2 hs.tail, rfl⟩
  | .record kvs, v, fp, h, hs => by
    simp only [MadeOf] at h ⊢
    obtain ⟨a, vs, fps, rfl, h1, h2, rfl⟩ := h
    exact ⟨a, vs, fps, rfl, by rw [hs a (by simp), h1], FieldsMadeOf.same h2 hs.tail, rfl⟩
  | .json j, v, fp, h, hs => by
    simp only [MadeOf] at h ⊢
    exact h.same hs
theorem ItemsMadeOf.same : ∀ {js vs fp}, ItemsMadeOf H js vs fp → SameAt H H' fp → ItemsMadeOf H' js vs fp
  | [], vs, fp, h, _ => by simpa only [ItemsMadeOf] using h
  | j :: js, vs, fp, h, hs => by
    simp only [ItemsMadeOf] at h ⊢
    obtain ⟨v, vs', fp1, fp2, rfl, h1, h2, rfl⟩ := h
    exact ⟨v, vs', fp1, fp2, rfl, MadeOf.same h1 hs.left, ItemsMadeOf.same h2 hs.right, rfl⟩
theorem EntriesMadeOf.same : ∀ {js vs fp}, EntriesMadeOf H js vs fp → SameAt H H' fp → EntriesMadeOf H' js vs fp
  | [], vs, fp, h, _ => by simpa only [EntriesMadeOf] using h
  | (k, j) :: js, vs, fp, h, hs => by
    simp only [EntriesMadeOf] at h ⊢
    obtain ⟨v, vs', fp1, fp2, rfl, h1, h2, rfl⟩ := h
    exact ⟨v, vs', fp1, fp2, rfl, MadeOf.same h1 hs.left, EntriesMadeOf.same h2 hs.right, rfl⟩
theorem FieldsMadeOf.same : ∀ {js vs fp}, FieldsMadeOf H js vs fp → SameAt H H' fp → FieldsMadeOf H' js vs fp
  | [], vs, fp, h, _ => by simpa only [FieldsMadeOf] using h
  | (k, j) :: js, vs, fp, h, hs => by
    simp only [FieldsMadeOf] at h ⊢
    obtain ⟨v, vs', fp1, fp2, rfl, h1, h2, rfl⟩ := h
    exact ⟨v, vs', fp1, fp2, rfl, MadeOf.same h1 hs.left, FieldsMadeOf.same h2 hs.right, rfl⟩
end

theorem lt_of_get {H : Heap} {a : Nat} {o : Obj} (h : H[a]? = some o) : a < H.length := by
  have := (List.getElem?_eq_some_iff.1 h).1
  exact this

/-- What a value is made of, as a closed set: references lead only to it. -/
structure Sealed (H : Heap) (vs : List HVal) (fp : List Nat) : Prop where
  roots : ∀ a, .ref a ∈ vs → a ∈ fp
  inside : ∀ a ∈ fp, ∃ o, H[a]? = some o ∧ ∀ b, .ref b ∈ o.parts → b ∈ fp

theorem Sealed.none {l : List HVal} (h : ∀ a, .ref a ∉ l) : Sealed H l [] :=
  ⟨fun a ha => absurd ha (h a), by simp⟩

theorem Sealed.obj {a : Nat} {o : Obj} {fp : List Nat} (h : H[a]? = some o) (hs : Sealed H o.parts fp) :
    Sealed H [.ref a] (a :: fp) := by
  refine ⟨fun b hb => ?_, fun b hb => ?_⟩
  · simp at hb; simp [hb]
  · rcases List.mem_cons.1 hb with rfl | hb
    · exact ⟨o, h, fun c hc => List.mem_cons_of_mem _ (hs.roots c hc)⟩
    · obtain ⟨o', h1, h2⟩ := hs.inside b hb
      exact ⟨o', h1, fun c hc => List.mem_cons_of_mem _ (h2 c hc)⟩

theorem Sealed.append {l l' : List HVal} {fp fp' : List Nat} (h : Sealed H l fp) (h' : Sealed H l' fp') :
    Sealed H (l ++ l') (fp ++ fp') := by
  refine ⟨fun b hb => ?_, fun b hb => ?_⟩
  · rcases List.mem_append.1 hb with hb | hb
    · exact List.mem_append_left _ (h.roots b hb)
    · exact List.mem_append_right _ (h'.roots b hb)
  · rcases List.mem_append.1 hb with hb | hb
    · obtain ⟨o, h1, h2⟩ := h.inside b hb
      exact ⟨o, h1, fun c hc => List.mem_append_left _ (h2 c hc)⟩
    · obtain ⟨o, h1, h2⟩ := h'.inside b hb
      exact ⟨o, h1, fun c hc => List.mem_append_right _ (h2 c hc)⟩

theorem Sealed.reached {l : List HVal} {fp : List Nat} (h : Sealed H l fp) {v : HVal} (hv : v ∈ l) {a : Nat}
    (hr : Reached H v a) : a ∈ fp := by
  induction hr with
  | here e => exact h.roots _ (e ▸ hv)
  | part _ h1 h2 ih =>
    obtain ⟨o, h3, h4⟩ := h.inside _ ih
    rw [h1] at h3
    cases h3
    exact h4 _ h2

mutual
theorem JsonMadeOf.sealed : ∀ {j v fp}, JsonMadeOf H j v fp → Sealed H [v] fp
  | .null, v, fp, h => by simp only [JsonMadeOf] at h; obtain ⟨rfl, rfl⟩ := h; exact .none (by simp)
  | .bool _, v, fp, h => by simp only [JsonMadeOf] at h; obtain ⟨rfl, rfl⟩ := h; exact .none (by simp)
  | .num _, v, fp, h => by simp only [JsonMadeOf] at h; obtain ⟨rfl, rfl⟩ := h; exact .none (by simp)
  | .real _, v, fp, h => by simp only [JsonMadeOf] at h; obtain ⟨rfl, rfl⟩ := h; exact .none (by simp)
  | .str _, v, fp, h => by simp only [JsonMadeOf] at h; obtain ⟨rfl, rfl⟩ := h; exact .none (by simp)
  | .arr js, v, fp, h => by
    simp only [JsonMadeOf] at h
    obtain ⟨a, vs, fps, rfl, h1, h2, rfl⟩ := h
    exact .obj h1 (JsonsMadeOf.sealed h2)
  | .obj kvs, v, fp, h => by
    simp only [JsonMadeOf] at h
    obtain ⟨a, vs, fps, rfl, h1, h2, rfl⟩ := h
    exact .obj h1 (JsonEntriesMadeOf.sealed h2)
theorem JsonsMadeOf.sealed : ∀ {js vs fp}, JsonsMadeOf H js vs fp → Sealed H vs fp
  | [], vs, fp, h => by simp only [JsonsMadeOf] at h; obtain ⟨rfl, rfl⟩ := h; exact .none (by simp)
  | j :: js, vs, fp, h => by
    simp only [JsonsMadeOf] at h
    obtain ⟨v, vs', fp1, fp2, rfl, h1, h2, rfl⟩ := h
    exact .append (JsonMadeOf.sealed h1) (JsonsMadeOf.sealed h2)
theorem JsonEntriesMadeOf.sealed : ∀ {js vs fp}, JsonEntriesMadeOf H js vs fp → Sealed H (vs.map (·.2)) fp
  | [], vs, fp, h => by simp only [JsonEntriesMadeOf] at h; obtain ⟨rfl, rfl⟩ := h; exact .none (by simp)
  | (k, j) :: js, vs, fp, h => by
    simp only [JsonEntriesMadeOf] at h
    obtain ⟨v, vs', fp1, fp2, rfl, h1, h2, rfl⟩ := h
    exact .append (JsonMadeOf.sealed h1) (JsonEntriesMadeOf.sealed h2)
end

mutual
theorem MadeOf.sealed : ∀ {g v fp}, MadeOf H g v fp → Sealed H [v] fp
  | .nil, v, fp, h => by simp only [MadeOf] at h; obtain ⟨rfl, rfl⟩ := h; exact .none (by simp)
  | .bool _, v, fp, h => by simp only [MadeOf] at h; obtain ⟨rfl, rfl⟩ := h; exact .none (by simp)
  | .int _, v, fp, h => by simp only [MadeOf] at h; obtain ⟨rfl, rfl⟩ := h; exact .none (by simp)
  | .long _, v, fp, h => by simp only [MadeOf] at h; obtain ⟨rfl, rfl⟩ := h; exact .none (by simp)
  | .float _, v, fp, h => by simp only [MadeOf] at h; obtain ⟨rfl, rfl⟩ := h; exact .none (by simp)
  | .double _, v, fp, h => by simp only [MadeOf] at h; obtain ⟨rfl, rfl⟩ := h; exact .none (by simp)
  | .string _, v, fp, h => by simp only [MadeOf] at h; obtain ⟨rfl, rfl⟩ := h; exact .none (by simp)
  | .symbol _, v, fp, h => by simp only [MadeOf] at h; obtain ⟨rfl, rfl⟩ := h; exact .none (by simp)
  | .bytes bs, v, fp, h => by
    simp only [MadeOf] at h
    obtain ⟨a, rfl, h1, rfl⟩ := h
    exact .obj h1 (.none (by simp [Obj.parts]))
  | .list js, v, fp, h => by
    simp only [MadeOf] at h
    obtain ⟨a, vs, fps, rfl, h1, h2, rfl⟩ := h
    exact .obj h1 (ItemsMadeOf.sealed h2)
  | .map js, v, fp, h => by
    simp only [MadeOf] at h
    obtain ⟨a, vs, fps, rfl, h1, h2, rfl⟩ := h
    exact .obj h1 (EntriesMadeOf.sealed h2)
  | .record js, v, fp, h => by
    simp only [MadeOf] at h
    obtain ⟨a, vs, fps, rfl, h1, h2, rfl⟩ := h
    exact .obj h1 (FieldsMadeOf.sealed h2)
  | .json j, v, fp, h => by
    simp only [MadeOf] at h
    exact h.sealed
theorem ItemsMadeOf.sealed : ∀ {js vs fp}, ItemsMadeOf H js vs fp → Sealed H vs fp
  | [], vs, fp, h => by simp only [ItemsMadeOf] at h; obtain ⟨rfl, rfl⟩ := h; exact .none (by simp)
  | j :: js, vs, fp, h => by
    simp only [ItemsMadeOf] at h
    obtain ⟨v, vs', fp1, fp2, rfl, h1, h2, rfl⟩ := h
    exact .append (MadeOf.sealed h1) (ItemsMadeOf.sealed h2)
theorem EntriesMadeOf.sealed : ∀ {js vs fp}, EntriesMadeOf H js vs fp → Sealed H (vs.map (·.2)) fp
  | [], vs, fp, h => by simp only [EntriesMadeOf] at h; obtain ⟨rfl, rfl⟩ := h; exact .none (by simp)
  | (k, j) :: js, vs, fp, h => by
    simp only [EntriesMadeOf] at h
    obtain ⟨v, vs', fp1, fp2, rfl, h1, h2, rfl⟩ := h
    exact .append (MadeOf.sealed h1) (EntriesMadeOf.sealed h2)
theorem FieldsMadeOf.sealed : ∀ {js vs fp}, FieldsMadeOf H js vs fp → Sealed H (vs.map (·.2)) fp
  | [], vs, fp, h => by simp only [FieldsMadeOf] at h; obtain ⟨rfl, rfl⟩ := h; exact .none (by simp)
  | (k, j) :: js, vs, fp, h => by
    simp only [FieldsMadeOf] at h
    obtain ⟨v, vs', fp1, fp2, rfl, h1, h2, rfl⟩ := h
    exact .append (MadeOf.sealed h1) (FieldsMadeOf.sealed h2)
end

theorem Sealed.lt {l : List HVal} {fp : List Nat} (h : Sealed H l fp) {a : Nat} (ha : a ∈ fp) : a < H.length := by
  obtain ⟨o, h1, -⟩ := h.inside a ha
  exact lt_of_get h1
end

/-! ### Building -/

/-- Fresh objects: all between two lengths, each used once. -/
def Fresh (lo hi : Nat) (fp : List Nat) : Prop := fp.Nodup ∧ ∀ a ∈ fp, lo ≤ a ∧ a < hi

theorem Fresh.nil {lo hi : Nat} : Fresh lo hi [] := ⟨by simp, by simp⟩

theorem Fresh.append {lo mid hi : Nat} {l l' : List Nat} (h : Fresh lo mid l) (h' : Fresh mid hi l') (h1 : lo ≤ mid)
    (h2 : mid ≤ hi) : Fresh lo hi (l ++ l') := by
  refine ⟨List.nodup_append.2 ⟨h.1, h'.1, fun a ha b hb e => ?_⟩, fun a ha => ?_⟩
  · have := h.2 a ha; have := h'.2 b hb; omega
  · rcases List.mem_append.1 ha with ha | ha
    · have := h.2 a ha; omega
    · have := h'.2 a ha; omega

theorem Fresh.cons {lo hi : Nat} {l : List Nat} (h : Fresh lo hi l) (hle : lo ≤ hi) : Fresh lo (hi + 1) (hi :: l) := by
  refine ⟨List.nodup_cons.2 ⟨fun hm => ?_, h.1⟩, fun a ha => ?_⟩
  · have := h.2 _ hm; omega
  · rcases List.mem_cons.1 ha with rfl | ha
    · omega
    · have := h.2 a ha; omega

section
variable {roots : Roots}

mutual
theorem Build.grows : ∀ {H g v H'}, Build roots H g v H' → H <+: H'
  | _, _, _, _, .nil => List.prefix_refl _
  | _, _, _, _, .bool => List.prefix_refl _
  | _, _, _, _, .int => List.prefix_refl _
  | _, _, _, _, .long => List.prefix_refl _
  | _, _, _, _, .float => List.prefix_refl _
  | _, _, _, _, .double => List.prefix_refl _
  | _, _, _, _, .string => List.prefix_refl _
  | _, _, _, _, .symbol => List.prefix_refl _
  | _, _, _, _, .bytes => List.prefix_append _ _
  | _, _, _, _, .list h => (BuildItems.grows h).trans (List.prefix_append _ _)
  | _, _, _, _, .map h => (BuildEntries.grows h).trans (List.prefix_append _ _)
  | _, _, _, _, .record h => (BuildFields.grows h).trans (List.prefix_append _ _)
  | _, _, _, _, .json _ => List.prefix_refl _
theorem BuildItems.grows : ∀ {H g v H'}, BuildItems roots H g v H' → H <+: H'
  | _, _, _, _, .nil => List.prefix_refl _
  | _, _, _, _, .cons h h' => (Build.grows h).trans (BuildItems.grows h')
theorem BuildEntries.grows : ∀ {H g v H'}, BuildEntries roots H g v H' → H <+: H'
  | _, _, _, _, .nil => List.prefix_refl _
  | _, _, _, _, .cons h h' => (Build.grows h).trans (BuildEntries.grows h')
theorem BuildFields.grows : ∀ {H g v H'}, BuildFields roots H g v H' → H <+: H'
  | _, _, _, _, .nil => List.prefix_refl _
  | _, _, _, _, .cons h h' => (Build.grows h).trans (BuildFields.grows h')
end

theorem sameAt_prefix {H H' : Heap} {fp : List Nat} (hp : H <+: H') (h : ∀ a ∈ fp, a < H.length) : SameAt H H' fp := by
  obtain ⟨X, rfl⟩ := hp
  exact sameAt_append h

theorem get_last {H : Heap} {o : Obj} : (H ++ [o])[H.length]? = some o := by simp

/-- What a decoded value is made of: fresh objects used once, and objects in `old`. -/
def Mixed (old : Nat → Prop) (lo hi : Nat) (fp : List Nat) : Prop :=
  (∀ a ∈ fp, (lo ≤ a ∧ a < hi) ∨ old a) ∧ ((∀ a, ¬old a) → fp.Nodup)

theorem Mixed.fresh {old : Nat → Prop} {lo hi : Nat} {fp : List Nat} (h : Fresh lo hi fp) : Mixed old lo hi fp :=
  ⟨fun a ha => .inl (h.2 a ha), fun _ => h.1⟩

theorem Mixed.toFresh {old : Nat → Prop} {lo hi : Nat} {fp : List Nat} (h : Mixed old lo hi fp) (ho : ∀ a, ¬old a) :
    Fresh lo hi fp := ⟨h.2 ho, fun a ha => (h.1 a ha).resolve_right (ho a)⟩

theorem Mixed.append {old : Nat → Prop} {lo mid hi : Nat} {l l' : List Nat} (h : Mixed old lo mid l)
    (h' : Mixed old mid hi l') (h1 : lo ≤ mid) (h2 : mid ≤ hi) : Mixed old lo hi (l ++ l') := by
  refine ⟨fun a ha => ?_, fun ho => ((h.toFresh ho).append (h'.toFresh ho) h1 h2).1⟩
  rcases List.mem_append.1 ha with ha | ha
  · rcases h.1 a ha with h3 | h3
    · exact .inl (by omega)
    · exact .inr h3
  · rcases h'.1 a ha with h3 | h3
    · exact .inl (by omega)
    · exact .inr h3

theorem Mixed.cons {old : Nat → Prop} {lo hi : Nat} {l : List Nat} (h : Mixed old lo hi l) (hle : lo ≤ hi) :
    Mixed old lo (hi + 1) (hi :: l) := by
  refine ⟨fun a ha => ?_, fun ho => ((h.toFresh ho).cons hle).1⟩
  rcases List.mem_cons.1 ha with rfl | ha
  · exact .inl (by omega)
  · rcases h.1 a ha with h3 | h3
    · exact .inl (by omega)
    · exact .inr h3

/-- The defaults are where the schema keeps them, in objects of `old`. -/
def RootsOK (H : Heap) (roots : Roots) (old : Nat → Prop) : Prop :=
  ∀ j v, (j, v) ∈ roots → ∃ fp, JsonMadeOf H j v fp ∧ (∀ a ∈ fp, old a)

theorem RootsOK.grow {H H' : Heap} {old : Nat → Prop} (h : RootsOK H roots old) (hp : H <+: H') : RootsOK H' roots old := by
  intro j v hm
  obtain ⟨fp, h1, h2⟩ := h j v hm
  exact ⟨fp, h1.same (sameAt_prefix hp fun a ha => h1.sealed.lt ha), h2⟩

/-- One object around the parts. -/
theorem Mixed.wrap {old : Nat → Prop} {H H1 : Heap} {o : Obj} {fp : List Nat} (h : Mixed old H.length H1.length fp)
    (hp : H <+: H1) : Mixed old H.length (H1 ++ [o]).length (H1.length :: fp) := by
  simpa using h.cons hp.length_le

mutual
theorem Build.made {old : Nat → Prop} : ∀ {H g v H'}, Build roots H g v H' → RootsOK H roots old →
    ∃ fp, MadeOf H' g v fp ∧ Mixed old H.length H'.length fp
  | _, _, _, _, .nil, hr => ⟨[], by simp [MadeOf], .fresh .nil⟩
  | _, _, _, _, .bool, hr => ⟨[], by simp [MadeOf], .fresh .nil⟩
  | _, _, _, _, .int, hr => ⟨[], by simp [MadeOf], .fresh .nil⟩
  | _, _, _, _, .long, hr => ⟨[], by simp [MadeOf], .fresh .nil⟩
  | _, _, _, _, .float, hr => ⟨[], by simp [MadeOf], .fresh .nil⟩
  | _, _, _, _, .double, hr => ⟨[], by simp [MadeOf], .fresh .nil⟩
  | _, _, _, _, .string, hr => ⟨[], by simp [MadeOf], .fresh .nil⟩
  | _, _, _, _, .symbol, hr => ⟨[], by simp [MadeOf], .fresh .nil⟩
  | H, _, _, _, .bytes, hr => ⟨[H.length], by simp [MadeOf], .fresh (by simpa using Fresh.nil.cons (Nat.le_refl H.length))⟩
  | _, _, _, _, .list h, hr => by
    obtain ⟨fp, h1, h2⟩ := BuildItems.made h hr
    have hp := h.grows
    exact ⟨_, by simp only [MadeOf]; exact ⟨_, _, fp, rfl, get_last,
      h1.same (sameAt_append fun a ha => h1.sealed.lt ha), rfl⟩, h2.wrap hp⟩
  | _, _, _, _, .map h, hr => by
    obtain ⟨fp, h1, h2⟩ := BuildEntries.made h hr
    have hp := h.grows
    exact ⟨_, by simp only [MadeOf]; exact ⟨_, _, fp, rfl, get_last,
      h1.same (sameAt_append fun a ha => h1.sealed.lt ha), rfl⟩, h2.wrap hp⟩
  | _, _, _, _, .record h, hr => by
    obtain ⟨fp, h1, h2⟩ := BuildFields.made h hr
    have hp := h.grows
    exact ⟨_, by simp only [MadeOf]; exact ⟨_, _, fp, rfl, get_last,
      h1.same (sameAt_append fun a ha => h1.sealed.lt ha), rfl⟩, h2.wrap hp⟩
  | _, _, _, _, .json h, hr => by
    obtain ⟨fp, h1, h2⟩ := hr _ _ h
    refine ⟨fp, by simpa only [MadeOf] using h1, fun a ha => .inr (h2 a ha), fun ho => ?_⟩
    cases fp with
    | nil => simp
    | cons a _ => exact absurd (h2 a (by simp)) (ho a)
theorem BuildItems.made {old : Nat → Prop} : ∀ {H g v H'}, BuildItems roots H g v H' → RootsOK H roots old →
    ∃ fp, ItemsMadeOf H' g v fp ∧ Mixed old H.length H'.length fp
  | _, _, _, _, .nil, hr => ⟨[], by simp [ItemsMadeOf], .fresh .nil⟩
  | _, _, _, _, .cons h h', hr => by
    obtain ⟨fp, h1, h2⟩ := Build.made h hr
    obtain ⟨fp', h3, h4⟩ := BuildItems.made h' (hr.grow h.grows)
    refine ⟨fp ++ fp', ?_, h2.append h4 h.grows.length_le h'.grows.length_le⟩
    simp only [ItemsMadeOf]
    exact ⟨_, _, fp, fp', rfl, h1.same (sameAt_prefix h'.grows fun a ha => h1.sealed.lt ha), h3, rfl⟩
theorem BuildEntries.made {old : Nat → Prop} : ∀ {H g v H'}, BuildEntries roots H g v H' → RootsOK H roots old →
    ∃ fp, EntriesMadeOf H' g v fp ∧ Mixed old H.length H'.length fp
  | _, _, _, _, .nil, hr => ⟨[], by simp [EntriesMadeOf], .fresh .nil⟩
  | _, _, _, _, .cons h h', hr => by
    obtain ⟨fp, h1, h2⟩ := Build.made h hr
    obtain ⟨fp', h3, h4⟩ := BuildEntries.made h' (hr.grow h.grows)
    refine ⟨fp ++ fp', ?_, h2.append h4 h.grows.length_le h'.grows.length_le⟩
    simp only [EntriesMadeOf]
    exact ⟨_, _, fp, fp', rfl, h1.same (sameAt_prefix h'.grows fun a ha => h1.sealed.lt ha), h3, rfl⟩
theorem BuildFields.made {old : Nat → Prop} : ∀ {H g v H'}, BuildFields roots H g v H' → RootsOK H roots old →
    ∃ fp, FieldsMadeOf H' g v fp ∧ Mixed old H.length H'.length fp
  | _, _, _, _, .nil, hr => ⟨[], by simp [FieldsMadeOf], .fresh .nil⟩
  | _, _, _, _, .cons h h', hr => by
    obtain ⟨fp, h1, h2⟩ := Build.made h hr
    obtain ⟨fp', h3, h4⟩ := BuildFields.made h' (hr.grow h.grows)
    refine ⟨fp ++ fp', ?_, h2.append h4 h.grows.length_le h'.grows.length_le⟩
    simp only [FieldsMadeOf]
    exact ⟨_, _, fp, fp', rfl, h1.same (sameAt_prefix h'.grows fun a ha => h1.sealed.lt ha), h3, rfl⟩
end
end

/-! ### Loading the defaults -/

mutual
theorem loadJson_made : ∀ (j : Json) (H : Heap), H <+: (loadJson j H).2 ∧ ∃ fp, JsonMadeOf (loadJson j H).2 j (loadJson j H).1 fp ∧
    Fresh H.length (loadJson j H).2.length fp
  | .null, H => ⟨List.prefix_refl _, [], by simp [JsonMadeOf, loadJson], .nil⟩
  | .bool _, H => ⟨List.prefix_refl _, [], by simp [JsonMadeOf, loadJson], .nil⟩
  | .num _, H => ⟨List.prefix_refl _, [], by simp [JsonMadeOf, loadJson], .nil⟩
  | .real _, H => ⟨List.prefix_refl _, [], by simp [JsonMadeOf, loadJson], .nil⟩
  | .str _, H => ⟨List.prefix_refl _, [], by simp [JsonMadeOf, loadJson], .nil⟩
  | .arr js, H => by
    obtain ⟨hp, fp, h1, h2⟩ := loadJsons_made js H
    simp only [loadJson]
    refine ⟨hp.trans (List.prefix_append _ _), (loadJsons js H).2.length :: fp, ?_, ?_⟩
    · simp only [JsonMadeOf]
      exact ⟨_, _, fp, rfl, get_last, h1.same (sameAt_append fun a ha => h1.sealed.lt ha), rfl⟩
    · simpa using h2.cons hp.length_le
  | .obj kvs, H => by
    obtain ⟨hp, fp, h1, h2⟩ := loadEntries_made kvs H
    simp only [loadJson]
    refine ⟨hp.trans (List.prefix_append _ _), (loadEntries kvs H).2.length :: fp, ?_, ?_⟩
    · simp only [JsonMadeOf]
      exact ⟨_, _, fp, rfl, get_last, h1.same (sameAt_append fun a ha => h1.sealed.lt ha), rfl⟩
    · simpa using h2.cons hp.length_le
theorem loadJsons_made : ∀ (j : List Json) (H : Heap), H <+: (loadJsons j H).2 ∧
    ∃ fp, JsonsMadeOf (loadJsons j H).2 j (loadJsons j H).1 fp ∧ Fresh H.length (loadJsons j H).2.length fp
  | [], H => ⟨List.prefix_refl _, [], by simp [JsonsMadeOf, loadJsons], .nil⟩
  | j :: js, H => by
    obtain ⟨hp, fp, h1, h2⟩ := loadJson_made j H
    obtain ⟨hp', fp', h3, h4⟩ := loadJsons_made js (loadJson j H).2
    simp only [loadJsons]
    refine ⟨hp.trans hp', fp ++ fp', ?_, h2.append h4 hp.length_le hp'.length_le⟩
    simp only [JsonsMadeOf]
    exact ⟨_, _, fp, fp', rfl, h1.same (sameAt_prefix hp' fun a ha => h1.sealed.lt ha), h3, rfl⟩
theorem loadEntries_made : ∀ (j : List (Str × Json)) (H : Heap), H <+: (loadEntries j H).2 ∧
    ∃ fp, JsonEntriesMadeOf (loadEntries j H).2 j (loadEntries j H).1 fp ∧ Fresh H.length (loadEntries j H).2.length fp
  | [], H => ⟨List.prefix_refl _, [], by simp [JsonEntriesMadeOf, loadEntries], .nil⟩
  | (k, j) :: js, H => by
    obtain ⟨hp, fp, h1, h2⟩ := loadJson_made j H
    obtain ⟨hp', fp', h3, h4⟩ := loadEntries_made js (loadJson j H).2
    simp only [loadEntries]
    refine ⟨hp.trans hp', fp ++ fp', ?_, h2.append h4 hp.length_le hp'.length_le⟩
    simp only [JsonEntriesMadeOf]
    exact ⟨_, _, fp, fp', rfl, h1.same (sameAt_prefix hp' fun a ha => h1.sealed.lt ha), h3, rfl⟩
end

theorem loadAll_made : ∀ (js : List Json) (H : Heap), H <+: (loadAll js H).2 ∧
    RootsOK (loadAll js H).2 (loadAll js H).1 (fun a => H.length ≤ a ∧ a < (loadAll js H).2.length)
  | [], H => ⟨List.prefix_refl _, by intro j v h; simp [loadAll] at h⟩
  | j :: js, H => by
    obtain ⟨hp, fp, h1, h2⟩ := loadJson_made j H
    obtain ⟨hp', h3⟩ := loadAll_made js (loadJson j H).2
    simp only [loadAll]
    refine ⟨hp.trans hp', fun j' v' hm => ?_⟩
    have l1 := hp.length_le
    have l2 := hp'.length_le
    rcases List.mem_cons.1 hm with e | hm
    · cases e
      refine ⟨fp, h1.same (sameAt_prefix hp' fun a ha => h1.sealed.lt ha), fun a ha => ?_⟩
      have := h2.2 a ha
      omega
    · obtain ⟨fp', h4, h5⟩ := h3 j' v' hm
      refine ⟨fp', h4, fun a ha => ?_⟩
      have := h5 a ha
      omega

theorem loadJson_scalar {j : Json} (h : j.scalar = true) (H : Heap) : loadJson j H = (.atom (.json j), H) := by
  cases j <;> simp_all [Json.scalar, loadJson]

/-- Scalar defaults need no objects. -/
theorem loadAll_scalar : ∀ {js : List Json} (_ : ∀ j ∈ js, j.scalar = true) (H : Heap),
    (loadAll js H).2 = H ∧ ∀ j v, (j, v) ∈ (loadAll js H).1 → v = .atom (.json j) ∧ j.scalar = true
  | [], _, H => ⟨rfl, by intro j v h; simp [loadAll] at h⟩
  | j :: js, h, H => by
    have h1 := loadJson_scalar (h j (by simp)) H
    obtain ⟨h2, h3⟩ := loadAll_scalar (js := js) (fun x hx => h x (by simp [hx])) H
    simp only [loadAll, h1]
    refine ⟨h2, fun j' v' hm => ?_⟩
    rcases List.mem_cons.1 hm with e | hm
    · cases e; exact ⟨rfl, h j (by simp)⟩
    · exact h3 j' v' hm

theorem loadAll_mem : ∀ {js : List Json} {j : Json} (_ : j ∈ js) (H : Heap), ∃ v, (j, v) ∈ (loadAll js H).1
  | j' :: js, j, h, H => by
    simp only [loadAll]
    rcases List.mem_cons.1 h with rfl | h
    · exact ⟨(loadJson j H).1, by simp⟩
    · obtain ⟨v, hv⟩ := loadAll_mem h (loadJson j' H).2
      exact ⟨v, by simp [hv]⟩
end Verif
