import Verif.Gen.Val
/-
Go maps listed in key order: insertion, lookup and equality.
-/
namespace Verif
set_option linter.unusedSimpArgs false

theorem keyLt_irrefl : ∀ k, keyLt k k = false
  | [] => rfl
  | a :: as => by simp [keyLt, keyLt_irrefl as]

theorem keyLt_trans : ∀ {a b c}, keyLt a b = true → keyLt b c = true → keyLt a c = true
  | [], [], _, h, _ => by cases h
  | _ :: _, [], _, h, _ => by cases h
  | _, _ :: _, [], _, h => by cases h
  | [], b :: bs, c :: cs, _, _ => rfl
  | a :: as, b :: bs, c :: cs, h1, h2 => by
    simp only [keyLt] at h1 h2 ⊢
    by_cases hab : a = b
    · subst hab
      rw [if_pos rfl] at h1
      by_cases hbc : a = c
      · subst hbc; rw [if_pos rfl] at h2 ⊢; exact keyLt_trans h1 h2
      · rw [if_neg hbc] at h2 ⊢; exact h2
    · rw [if_neg hab] at h1
      by_cases hbc : b = c
      · subst hbc; rw [if_neg hab]; exact h1
      · rw [if_neg hbc] at h2
        simp only [decide_eq_true_eq] at h1 h2
        have : a ≠ c := by rintro rfl; omega
        rw [if_neg this]; simp only [decide_eq_true_eq]; omega

theorem keyLt_total : ∀ a b, keyLt a b = true ∨ a = b ∨ keyLt b a = true
  | [], [] => .inr (.inl rfl)
  | [], _ :: _ => .inl rfl
  | _ :: _, [] => .inr (.inr rfl)
  | a :: as, b :: bs => by
    simp only [keyLt]
    by_cases hab : a = b
    · subst hab
      rcases keyLt_total as bs with h | h | h
      · left; simpa using h
      · right; left; rw [h]
      · right; right; simpa using h
    · have : a.toNat ≠ b.toNat := fun h => hab (BitVec.eq_of_toNat_eq h)
      rw [if_neg hab, if_neg (Ne.symm hab)]
      simp only [decide_eq_true_eq]; omega

variable {α : Type}

/-- Listed in key order, without repetition. -/
def Sorted (m : List (List Byte × α)) : Prop := m.Pairwise fun a b => keyLt a.1 b.1 = true

theorem mapGet_mem {m : List (List Byte × α)} {k : List Byte} {v : α} (h : mapGet m k = some v) :
    (k, v) ∈ m := by
  induction m with
  | nil => cases h
  | cons x m ih =>
    obtain ⟨k', v'⟩ := x
    simp only [mapGet] at h
    split at h
    · rename_i hk; subst hk; cases h; simp
    · exact List.mem_cons_of_mem _ (ih h)

theorem mapGet_none {m : List (List Byte × α)} {k : List Byte} (h : ∀ x ∈ m, x.1 ≠ k) :
    mapGet m k = none := by
  induction m with
  | nil => rfl
  | cons x m ih =>
    obtain ⟨k', v'⟩ := x
    simp only [mapGet]
    rw [if_neg (h (k', v') (by simp)), ih fun x hx => h x (List.mem_cons_of_mem _ hx)]

theorem mapGet_insert (k k' : List Byte) (v : α) : ∀ m : List (List Byte × α),
    mapGet (mapInsert k v m) k' = if k = k' then some v else mapGet m k'
  | [] => by simp [mapInsert, mapGet]
  | (a, b) :: m => by
    simp only [mapInsert]
    split
    · rename_i h; subst h; simp [mapGet]; split <;> rfl
    · rename_i hka
      split
      · simp [mapGet]
      · simp only [mapGet, mapGet_insert k k' v m]
        by_cases h1 : a = k'
        · subst h1; simp [hka]
        · simp [h1]

theorem mapInsert_keys {k : List Byte} {v : α} : ∀ {m : List (List Byte × α)} {x},
    x ∈ mapInsert k v m → x = (k, v) ∨ x ∈ m
  | [], x, h => by simp [mapInsert] at h; exact .inl h
  | (a, b) :: m, x, h => by
    simp only [mapInsert] at h
    split at h
    · rcases List.mem_cons.1 h with h | h
      · exact .inl h
      · exact .inr (List.mem_cons_of_mem _ h)
    · split at h
      · rcases List.mem_cons.1 h with h | h
        · exact .inl h
        · exact .inr h
      · rcases List.mem_cons.1 h with h | h
        · exact .inr (by rw [h]; simp)
        · rcases mapInsert_keys h with h | h
          · exact .inl h
          · exact .inr (List.mem_cons_of_mem _ h)

theorem sorted_insert (k : List Byte) (v : α) : ∀ {m : List (List Byte × α)}, Sorted m →
    Sorted (mapInsert k v m)
  | [], _ => by simp [mapInsert, Sorted]
  | (a, b) :: m, h => by
    have h' := List.pairwise_cons.1 h
    simp only [mapInsert]
    split
    · rename_i hk; subst hk
      exact List.pairwise_cons.2 ⟨h'.1, h'.2⟩
    · rename_i hk
      split
      · rename_i hlt
        refine List.pairwise_cons.2 ⟨fun x hx => ?_, h⟩
        rcases List.mem_cons.1 hx with rfl | hx
        · exact hlt
        · exact keyLt_trans hlt (h'.1 x hx)
      · rename_i hlt
        have hak : keyLt a k = true := by
          rcases keyLt_total k a with h1 | h1 | h1
          · exact absurd h1 hlt
          · exact absurd h1 hk
          · exact h1
        refine List.pairwise_cons.2 ⟨fun x hx => ?_, sorted_insert k v h'.2⟩
        rcases mapInsert_keys hx with rfl | hx
        · exact hak
        · exact h'.1 x hx

theorem sorted_inserts : ∀ (es : List (List Byte × α)) {m}, Sorted m → Sorted (mapInserts m es)
  | [], _, h => h
  | (k, v) :: es, _, h => sorted_inserts es (sorted_insert k v h)

theorem sorted_mapOf (es : List (List Byte × α)) : Sorted (mapOf es) :=
  sorted_inserts es List.Pairwise.nil

/-- Maps are determined by what they hold under each key. -/
theorem sorted_ext : ∀ {m m' : List (List Byte × α)}, Sorted m → Sorted m' →
    (∀ k, mapGet m k = mapGet m' k) → m = m'
  | [], [], _, _, _ => rfl
  | [], (k, v) :: m', _, _, h => by have := h k; simp [mapGet] at this
  | (k, v) :: m, [], _, _, h => by have := h k; simp [mapGet] at this
  | (k, v) :: m, (k', v') :: m', hs, hs', h => by
    have h1 := List.pairwise_cons.1 hs
    have h2 := List.pairwise_cons.1 hs'
    have hkk : k = k' := by
      have e1 := h k
      have e2 := h k'
      simp only [mapGet, if_true] at e1 e2
      by_cases hk : k = k'
      · exact hk
      · rw [if_neg (Ne.symm hk)] at e1
        rw [if_neg hk] at e2
        have m1 := h2.1 _ (mapGet_mem e1.symm)
        have m2 := h1.1 _ (mapGet_mem e2)
        have := keyLt_trans m1 m2
        simp only at this
        rw [keyLt_irrefl] at this; cases this
    subst hkk
    have hv : v = v' := by have := h k; simpa [mapGet] using this
    subst hv
    rw [sorted_ext h1.2 h2.2 fun q => ?_]
    by_cases hq : k = q
    · subst hq
      rw [mapGet_none, mapGet_none]
      · intro x hx he
        have := h2.1 x hx
        rw [he] at this; simp only [keyLt_irrefl] at this; cases this
      · intro x hx he
        have := h1.1 x hx
        rw [he] at this; simp only [keyLt_irrefl] at this; cases this
    · have := h q
      simpa [mapGet, hq] using this

/-- The last of the entries with a given key. -/
def lastEntry (es : List (List Byte × α)) (k : List Byte) : Option α :=
  ((es.filter fun e => e.1 = k).getLast?).map (·.2)

theorem mapGet_inserts (k : List Byte) : ∀ (es : List (List Byte × α)) (m : List (List Byte × α)),
    mapGet (mapInserts m es) k = (lastEntry es k).or (mapGet m k)
  | [], m => by simp [mapInserts, lastEntry]
  | (a, v) :: es, m => by
    rw [mapInserts, mapGet_inserts k es, mapGet_insert]
    by_cases h : a = k
    · subst h
      rw [if_pos rfl]
      simp only [lastEntry, List.filter_cons_of_pos (p := fun e : List Byte × α => decide (e.1 = a)) (a := (a, v)) (by simp)]
      cases h1 : es.filter (fun e => decide (e.1 = a)) with
      | nil => simp
      | cons x xs =>
        rw [List.getLast?_cons_cons]
        obtain ⟨y, hy⟩ : ∃ y, (x :: xs).getLast? = some y := ⟨_, List.getLast?_eq_some_getLast (by simp)⟩
        rw [hy]; rfl
    · rw [if_neg h]
      simp only [lastEntry, List.filter_cons_of_neg (p := fun e : List Byte × α => decide (e.1 = k)) (a := (a, v)) (by simpa using h)]

theorem mapGet_mapOf (es : List (List Byte × α)) (k : List Byte) :
    mapGet (mapOf es) k = lastEntry es k := by
  unfold mapOf; rw [mapGet_inserts]; simp [mapGet]

theorem sorted_keys_nodup {m : List (List Byte × α)} (h : Sorted m) : (m.map (·.1)).Nodup := by
  rw [List.nodup_iff_pairwise_ne, List.pairwise_map]
  refine h.imp ?_
  intro a b hab he
  rw [he, keyLt_irrefl] at hab; cases hab

theorem filter_key_nodup {es : List (List Byte × α)} (h : (es.map (·.1)).Nodup) (k : List Byte) :
    lastEntry es k = mapGet es k := by
  induction es with
  | nil => rfl
  | cons x es ih =>
    obtain ⟨a, v⟩ := x
    simp only [List.map_cons, List.nodup_cons] at h
    by_cases ha : a = k
    · subst ha
      have : es.filter (fun e => decide (e.1 = a)) = [] := by
        rw [List.filter_eq_nil_iff]
        intro y hy he
        exact h.1 (List.mem_map.2 ⟨y, hy, by simpa using he⟩)
      simp [lastEntry, this, mapGet]
    · have := ih h.2
      simp only [lastEntry] at this ⊢
      rw [List.filter_cons_of_neg (by simpa using ha), this]
      simp [mapGet, ha]

theorem mapGet_perm {es es' : List (List Byte × α)} (h : es.Perm es') (hn : (es.map (·.1)).Nodup)
    (k : List Byte) : mapGet es k = mapGet es' k := by
  have hn' : (es'.map (·.1)).Nodup := ((h.map _).nodup_iff).1 hn
  have key : ∀ {l : List (List Byte × α)}, (l.map (·.1)).Nodup → ∀ v, (k, v) ∈ l → mapGet l k = some v := by
    intro l hl v hv
    induction l with
    | nil => simp at hv
    | cons x l ih =>
      obtain ⟨a, b⟩ := x
      simp only [List.map_cons, List.nodup_cons] at hl
      rcases List.mem_cons.1 hv with hv | hv
      · cases hv; simp [mapGet]
      · have : a ≠ k := by
          rintro rfl
          exact hl.1 (List.mem_map.2 ⟨_, hv, rfl⟩)
        simp only [mapGet, if_neg this]; exact ih hl.2 hv
  cases h1 : mapGet es k with
  | some v => exact (key hn' v (h.mem_iff.1 (mapGet_mem h1))).symm
  | none =>
    cases h2 : mapGet es' k with
    | none => rfl
    | some v =>
      rw [key hn v (h.mem_iff.2 (mapGet_mem h2))] at h1; cases h1

/-- Assigning the entries of a map in any order gives that map. -/
theorem mapOf_perm {m es : List (List Byte × α)} (hm : Sorted m) (h : m.Perm es) : mapOf es = m := by
  refine sorted_ext (sorted_mapOf es) hm fun k => ?_
  have hn := sorted_keys_nodup hm
  rw [mapGet_mapOf, filter_key_nodup (((h.map _).nodup_iff).1 hn), mapGet_perm h hn]

end Verif
