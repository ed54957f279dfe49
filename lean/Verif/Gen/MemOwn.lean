import Verif.Gen.MemBase
import Verif.Gen.MapLemmas
/-
How a target in memory and a target as in Gen/Target.lean correspond.
-/
namespace Verif
set_option linter.unusedSimpArgs false
set_option linter.unusedVariables false

/-- A variable that decoding may have assigned. Nothing is said of one that it has not, except that
copying fewer than all bytes of a fixed value over it leaves zeros. -/
def SlotShows (h : Mem) : Option Val → Var → List Nat → Prop
  | some x, v, fp => VarShows h x v fp
  | none, v, fp => fp = [] ∧ ∀ bs, v ≠ .prim (.fixed bs)

def SlotsShow (h : Mem) : List (Option Val) → List Var → List Nat → Prop
  | [], vs, fp => vs = [] ∧ fp = []
  | s :: ss, vs, fp => ∃ v vs' f g, vs = v :: vs' ∧ SlotShows h s v f ∧ SlotsShow h ss vs' g ∧ fp = f ++ g

theorem SlotShows.frame {h h' : Mem} {s : Option Val} {v : Var} {fp : List Nat} (hs : SlotShows h s v fp)
    (hf : ∀ a ∈ fp, h'[a]? = h[a]?) : SlotShows h' s v fp := by
  cases s with
  | none => exact hs
  | some x => exact VarShows.frame x hs hf

theorem SlotShows.lt {h : Mem} {s : Option Val} {v : Var} {fp : List Nat} (hs : SlotShows h s v fp) :
    ∀ a ∈ fp, a < h.length := by
  cases s with
  | none => rw [hs.1]; intro a ha; cases ha
  | some x => exact VarShows.lt x hs

theorem SlotsShow.frame {h h' : Mem} : ∀ {ss : List (Option Val)} {vs : List Var} {fp : List Nat}, SlotsShow h ss vs fp →
    (∀ a ∈ fp, h'[a]? = h[a]?) → SlotsShow h' ss vs fp
  | [], vs, fp, hs, hf => hs
  | s :: ss, vs, fp, hs, hf => by
    obtain ⟨v, vs', f, g, rfl, h1, h2, rfl⟩ := hs
    exact ⟨v, vs', f, g, rfl, h1.frame (fun a ha => hf a (by simp [ha])), SlotsShow.frame h2 (fun a ha => hf a (by simp [ha])), rfl⟩

theorem SlotsShow.lt {h : Mem} : ∀ {ss : List (Option Val)} {vs : List Var} {fp : List Nat}, SlotsShow h ss vs fp →
    ∀ a ∈ fp, a < h.length
  | [], vs, fp, hs, b, hb => by rw [hs.2] at hb; cases hb
  | s :: ss, vs, fp, hs, b, hb => by
    obtain ⟨v, vs', f, g, rfl, h1, h2, rfl⟩ := hs
    rcases List.mem_append.mp hb with hb | hb
    · exact h1.lt b hb
    · exact SlotsShow.lt h2 b hb

theorem SlotsShow.length {h : Mem} : ∀ {ss : List (Option Val)} {vs : List Var} {fp : List Nat}, SlotsShow h ss vs fp →
    vs.length = ss.length
  | [], vs, fp, hs => by
    obtain ⟨rfl, rfl⟩ := hs
    rfl
  | s :: ss, vs, fp, hs => by
    obtain ⟨v, vs', f, g, rfl, h1, h2, rfl⟩ := hs
    simp [SlotsShow.length h2]

/-- One of the variables, and what becomes of the whole when it is changed. -/
theorem SlotsShow.focus {h : Mem} : ∀ {ss : List (Option Val)} {vs : List Var} {fp : List Nat}, SlotsShow h ss vs fp →
    ∀ {i : Nat}, i < ss.length → ∃ v f g, vs[i]? = some v ∧ SlotShows h (slotAt ss i) v f ∧ fp.Perm (f ++ g) ∧
      ∀ h' s' v' f', (∀ a ∈ g, h'[a]? = h[a]?) → SlotShows h' s' v' f' →
        ∃ fp', SlotsShow h' (ss.set i s') (vs.set i v') fp' ∧ fp'.Perm (f' ++ g)
  | [], vs, fp, hs, i, hi => by simp at hi
  | s :: ss, vs, fp, hs, 0, hi => by
    obtain ⟨v, vs', f, g, rfl, h1, h2, rfl⟩ := hs
    refine ⟨v, f, g, rfl, h1, .refl _, ?_⟩
    intro h' s' v' f' ha hs'
    exact ⟨f' ++ g, ⟨v', vs', f', g, rfl, hs', h2.frame ha, rfl⟩, .refl _⟩
  | s :: ss, vs, fp, hs, i + 1, hi => by
    obtain ⟨v, vs', f, g, rfl, h1, h2, rfl⟩ := hs
    obtain ⟨v1, f1, g1, e1, e2, e3, e4⟩ := SlotsShow.focus h2 (i := i) (by simpa using hi)
    refine ⟨v1, f1, f ++ g1, by simpa using e1, e2, ?_, ?_⟩
    · refine (List.Perm.append_left f e3).trans ?_
      rw [← List.append_assoc, ← List.append_assoc]
      exact List.Perm.append_right g1 List.perm_append_comm
    · intro h' s' v' f' ha hs'
      obtain ⟨fp', e5, e6⟩ := e4 h' s' v' f' (fun a h => ha a (by simp [h])) hs'
      refine ⟨f ++ fp', ⟨v, vs'.set i v', f, fp', rfl, h1.frame (fun a h => ha a (by simp [h])), e5, rfl⟩, ?_⟩
      refine (List.Perm.append_left f e6).trans ?_
      rw [← List.append_assoc, ← List.append_assoc]
      exact List.Perm.append_right g1 List.perm_append_comm

theorem SlotsShow.snoc {h : Mem} {s : Option Val} {v : Var} {f : List Nat} (hs : SlotShows h s v f) :
    ∀ {ss : List (Option Val)} {vs : List Var} {fp : List Nat}, SlotsShow h ss vs fp → SlotsShow h (ss ++ [s]) (vs ++ [v]) (fp ++ f)
  | [], vs, fp, hss => by
    obtain ⟨rfl, rfl⟩ := hss
    exact ⟨v, [], f, [], rfl, hs, ⟨rfl, rfl⟩, by simp⟩
  | s1 :: ss, vs, fp, hss => by
    obtain ⟨v1, vs', f1, g, rfl, h1, h2, rfl⟩ := hss
    exact ⟨v1, vs' ++ [v], f1, g ++ f, rfl, h1, SlotsShow.snoc hs h2, by simp⟩

theorem SlotsShow.junk {h : Mem} : ∀ {n : Nat}, SlotsShow h (List.replicate n none) (List.replicate n .junk) []
  | 0 => ⟨rfl, rfl⟩
  | n + 1 => ⟨.junk, List.replicate n .junk, [], [], rfl, ⟨rfl, fun _ h => by cases h⟩, SlotsShow.junk, rfl⟩

theorem SlotsShow.all {h : Mem} : ∀ {ss : List (Option Val)} {vs : List Var} {fp : List Nat} {xs : List Val}, SlotsShow h ss vs fp →
    allSome ss = some xs → VarsShow h xs vs fp
  | [], vs, fp, xs, hs, ha => by
    simp only [allSome, Option.some.injEq] at ha
    subst ha
    simp only [VarsShow]
    exact hs
  | none :: ss, vs, fp, xs, hs, ha => by simp [allSome] at ha
  | some x :: ss, vs, fp, xs, hs, ha => by
    obtain ⟨v, vs', f, g, rfl, h1, h2, rfl⟩ := hs
    simp only [allSome, Option.map_eq_some_iff] at ha
    obtain ⟨ys, hy, rfl⟩ := ha
    simp only [VarsShow]
    exact ⟨v, vs', f, g, rfl, h1, SlotsShow.all h2 hy, rfl⟩

theorem allSome_length {α : Type} : ∀ {ss : List (Option α)} {xs : List α}, allSome ss = some xs → xs.length = ss.length
  | [], xs, ha => by simp only [allSome, Option.some.injEq] at ha; subst ha; rfl
  | none :: ss, xs, ha => by simp [allSome] at ha
  | some x :: ss, xs, ha => by
    simp only [allSome, Option.map_eq_some_iff] at ha
    obtain ⟨ys, hy, rfl⟩ := ha
    simp [allSome_length hy]

/-! ### Maps -/

/-- A value that has been put into `values`: its key, what it is, the variable and its objects. -/
abbrev Item := List Byte × Option Val × Var × List Nat

/-- The key, value and variable belong together. -/
def InU (U : List Item) (k : List Byte) (s : Option Val) (v : Var) : Prop := ∃ f, (k, s, v, f) ∈ U

def PendIn (U : List Item) : List (List Byte × Option Val) → List Var → Prop
  | [], vs => vs = []
  | (k, s) :: ps, vs => ∃ v vs', vs = v :: vs' ∧ InU U k s v ∧ PendIn U ps vs'

def CurIn (U : List Item) : List (List Byte × Val) → List (List Byte × Var) → Prop
  | [], ms => ms = []
  | (k, x) :: m, ms => ∃ v ms', ms = (k, v) :: ms' ∧ InU U k (some x) v ∧ CurIn U m ms'

theorem InU.more {U U' : List Item} {k s v} (h : InU U k s v) (hs : ∀ u ∈ U, u ∈ U') : InU U' k s v := by
  obtain ⟨f, hf⟩ := h
  exact ⟨f, hs _ hf⟩

theorem PendIn.more {U U' : List Item} (hs : ∀ u ∈ U, u ∈ U') : ∀ {ps vs}, PendIn U ps vs → PendIn U' ps vs
  | [], vs, h => h
  | (k, s) :: ps, vs, ⟨v, vs', e, h1, h2⟩ => ⟨v, vs', e, h1.more hs, PendIn.more hs h2⟩

theorem CurIn.more {U U' : List Item} (hs : ∀ u ∈ U, u ∈ U') : ∀ {m ms}, CurIn U m ms → CurIn U' m ms
  | [], vs, h => h
  | (k, s) :: ps, vs, ⟨v, vs', e, h1, h2⟩ => ⟨v, vs', e, h1.more hs, CurIn.more hs h2⟩

theorem PendIn.snoc {U : List Item} {k s v} (h : InU U k s v) : ∀ {ps vs}, PendIn U ps vs → PendIn U (ps ++ [(k, s)]) (vs ++ [v])
  | [], vs, hp => by
    have : vs = [] := hp
    subst this
    exact ⟨v, [], rfl, h, rfl⟩
  | (k1, s1) :: ps, vs, ⟨v1, vs', e, h1, h2⟩ => ⟨v1, vs' ++ [v], by simp [e], h1, PendIn.snoc h h2⟩

theorem PendIn.length {U : List Item} : ∀ {ps vs}, PendIn U ps vs → vs.length = ps.length
  | [], vs, hp => by
    have : vs = [] := hp
    subst this
    rfl
  | (k1, s1) :: ps, vs, ⟨v1, vs', e, h1, h2⟩ => by simp [e, PendIn.length h2]

theorem PendIn.dropLast {U : List Item} : ∀ {ps vs}, PendIn U ps vs → PendIn U ps.dropLast vs.dropLast
  | [], vs, hp => by
    have : vs = [] := hp
    subst this
    rfl
  | [(k1, s1)], vs, ⟨v1, vs', e, h1, h2⟩ => by
    have : vs' = [] := h2
    subst this; subst e
    rfl
  | (k1, s1) :: p :: ps, vs, ⟨v1, vs', e, h1, h2⟩ => by
    obtain ⟨v2, vs2, rfl, h3, h4⟩ := h2
    subst e
    exact ⟨v1, _, rfl, h1, PendIn.dropLast (ps := p :: ps) ⟨v2, vs2, rfl, h3, h4⟩⟩

theorem CurIn.insert {U : List Item} {k : List Byte} {x : Val} {v : Var} (hu : InU U k (some x) v) :
    ∀ {m ms}, CurIn U m ms → CurIn U (mapInsert k x m) (mapInsert k v ms)
  | [], ms, hc => by
    have : ms = [] := hc
    subst this
    exact ⟨v, [], rfl, hu, rfl⟩
  | (k1, x1) :: m, ms, hc => by
    obtain ⟨v1, ms', rfl, h1, h2⟩ := hc
    simp only [mapInsert]
    by_cases he : k = k1
    · rw [if_pos he, if_pos he]
      exact ⟨v, ms', rfl, hu, h2⟩
    · rw [if_neg he, if_neg he]
      by_cases hl : keyLt k k1 = true
      · rw [if_pos hl, if_pos hl]
        exact ⟨v, _, rfl, hu, v1, ms', rfl, h1, h2⟩
      · rw [if_neg hl, if_neg hl]
        exact ⟨v1, _, rfl, h1, CurIn.insert hu h2⟩

theorem CurIn.inserts {U : List Item} : ∀ {ps : List (List Byte × Option Val)} {vs : List Var} {es : List (List Byte × Val)} {m ms},
    PendIn U ps vs → allEntries ps = some es → CurIn U m ms →
    CurIn U (mapInserts m es) (mapInserts ms ((ps.map (·.1)).zip vs))
  | [], vs, es, m, ms, hp, he, hc => by
    simp only [allEntries, Option.some.injEq] at he
    subst he
    simpa [mapInserts] using hc
  | (k, none) :: ps, vs, es, m, ms, hp, he, hc => by simp [allEntries] at he
  | (k, some x) :: ps, vs, es, m, ms, hp, he, hc => by
    obtain ⟨v, vs', rfl, h1, h2⟩ := hp
    simp only [allEntries, Option.map_eq_some_iff] at he
    obtain ⟨es', he', rfl⟩ := he
    simp only [List.map_cons, List.zip_cons_cons, mapInserts]
    exact CurIn.inserts h2 he' (CurIn.insert h1 hc)

/-- The objects of all items. -/
def objs (U : List Item) : List Nat := U.flatMap (·.2.2.2)

/-- The entries of the map show what they should; entries with different keys share nothing. -/
theorem CurIn.shows {h : Mem} : ∀ {m : List (List Byte × Val)} {ms : List (List Byte × Var)} {U : List Item},
    CurIn U m ms → (m.map (·.1)).Nodup → (∀ u ∈ U, SlotShows h u.2.1 u.2.2.1 u.2.2.2) → (objs U).Nodup →
    ∃ fp, EntriesShow h m ms fp ∧ fp.Nodup ∧ ∀ a ∈ fp, a ∈ objs U
  | [], ms, U, hc, hm, hU, hn => by
    have : ms = [] := hc
    subst this
    exact ⟨[], by simp only [EntriesShow, and_true], List.nodup_nil, fun a ha => by cases ha⟩
  | (k, x) :: m, ms, U, hc, hm, hU, hn => by
    obtain ⟨v, ms', rfl, ⟨f, hf⟩, h2⟩ := hc
    obtain ⟨A, B, rfl⟩ := List.append_of_mem hf
    have hperm : (objs (A ++ (k, some x, v, f) :: B)).Perm (f ++ objs (A ++ B)) := by
      simp only [objs, List.flatMap_append, List.flatMap_cons]
      rw [← List.append_assoc, ← List.append_assoc]
      exact List.Perm.append_right _ List.perm_append_comm
    have hn' := hperm.nodup_iff.mp hn
    rw [List.nodup_append] at hn'
    simp only [List.map_cons, List.nodup_cons] at hm
    have hc' : CurIn (A ++ B) m ms' := by
      have hkey : ∀ y ∈ m, y.1 ≠ k := fun y hy he => hm.1 (he ▸ List.mem_map_of_mem hy)
      clear hm hn hn' hperm hU hf
      induction m generalizing ms' with
      | nil => exact h2
      | cons y m ih =>
        obtain ⟨k1, x1⟩ := y
        obtain ⟨v1, ms1, rfl, ⟨f1, hf1⟩, h4⟩ := h2
        refine ⟨v1, ms1, rfl, ⟨f1, ?_⟩, ih _ h4 (fun y hy => hkey y (List.mem_cons_of_mem _ hy))⟩
        simp only [List.mem_append, List.mem_cons] at hf1 ⊢
        rcases hf1 with h | h | h
        · exact .inl h
        · cases h; exact absurd rfl (hkey _ (List.mem_cons_self ..))
        · exact .inr h
    obtain ⟨fp, h5, h6, h7⟩ := CurIn.shows hc' hm.2 (fun u hu => hU u (by
      simp only [List.mem_append, List.mem_cons] at hu ⊢
      rcases hu with h | h
      · exact .inl h
      · exact .inr (.inr h))) hn'.2.1
    refine ⟨f ++ fp, ?_, ?_, ?_⟩
    · simp only [EntriesShow]
      exact ⟨v, ms', f, fp, rfl, hU _ hf, h5, rfl⟩
    · rw [List.nodup_append]
      exact ⟨hn'.1, h6, fun a ha b hb => hn'.2.2 a ha b (h7 b hb)⟩
    · intro a ha
      rw [hperm.mem_iff]
      rcases List.mem_append.mp ha with h | h
      · exact List.mem_append_left _ h
      · exact List.mem_append_right _ (h7 a h)

/-! ### Targets -/

/-- The variable of a target. -/
def MTgt.place : MTgt → Place
  | .leaf _ p => p
  | .array _ p => p
  | .map _ p _ => p
  | .union _ p => p
  | .record _ p => p
  | .bad p => p

/-- The `values` of a `MapXWrapper`. -/
def ValsShow (h : Mem) (U : List Item) (pend : List (List Byte × Option Val)) (vals : Var) (fv : List Nat) : Prop :=
  (vals = .nil ∧ pend = [] ∧ fv = []) ∨
  ∃ b cs, vals = .slice b pend.length ∧ h[b]? = some (.var (.struct 0 cs)) ∧ PendIn U pend (cs.take pend.length) ∧ fv = [b]

/-- In memory `h`, the target `P` stands for `t`; besides the variable it points to, the objects `fp` are its own. -/
def Owns (h : Mem) : MTgt → Tgt → List Nat → Prop
  | .leaf l p, t, fp => ∃ s v, t = .leaf l s ∧ h.read p = some v ∧
      if l = .null then v = .prim .null ∧ fp = [] else SlotShows h s v fp
  | .array i p, t, fp => ∃ items a cs fps, t = .array i items ∧ h.read p = some (.slice a items.length) ∧
      h[a]? = some (.var (.struct 0 cs)) ∧ SlotsShow h items (cs.take items.length) fps ∧ fp = a :: fps
  | .map i p w, t, fp => ∃ hinted pend cur a es keys vals U fv, t = .map i hinted pend cur ∧ h.read p = some (.map a) ∧
      h[a]? = some (.map es) ∧ h[w]? = some (.wrapper keys vals) ∧ keys.isSome = hinted ∧ keys.getD [] = pend.map (·.1) ∧
      ValsShow h U pend vals fv ∧ (∀ u ∈ U, SlotShows h u.2.1 u.2.2.1 u.2.2.2) ∧
      (∀ m, cur = some m → CurIn U m es ∧ Sorted m) ∧ fp = a :: w :: (fv ++ objs U)
  | .union ts p, t, fp => ∃ tag sel slots vs, t = .union ts tag sel slots ∧ h.read p = some (.struct tag vs) ∧
      SlotsShow h slots vs fp ∧ slots.length = ts.length
  | .record fs p, t, fp => ∃ slots tag vs, t = .record fs slots ∧ h.read p = some (.struct tag vs) ∧
      SlotsShow h slots vs fp ∧ slots.length = fs.length
  | .bad p, t, fp => t = .bad ∧ fp = [] ∧ ∃ v, h.read p = some v ∧ ∀ bs, v ≠ .prim (.fixed bs)

/-- A target stands for `t`, its objects are all different, and it does not point into one of them. -/
structure Own (h : Mem) (P : MTgt) (t : Tgt) (fp : List Nat) : Prop where
  owns : Owns h P t fp
  nodup : fp.Nodup
  away : P.place.id ∉ fp

theorem Owns.read {h : Mem} {P : MTgt} {t : Tgt} {fp : List Nat} (ho : Owns h P t fp) : ∃ v, h.read P.place = some v := by
  cases P with
  | leaf l p => obtain ⟨s, v, _, hr, _⟩ := ho; exact ⟨v, hr⟩
  | array i p => obtain ⟨_, _, _, _, _, hr, _⟩ := ho; exact ⟨_, hr⟩
  | map i p w => obtain ⟨_, _, _, _, _, _, _, _, _, _, hr, _⟩ := ho; exact ⟨_, hr⟩
  | union ts p => obtain ⟨_, _, _, _, _, hr, _⟩ := ho; exact ⟨_, hr⟩
  | record fs p => obtain ⟨_, _, _, _, hr, _⟩ := ho; exact ⟨_, hr⟩
  | bad p => obtain ⟨_, _, v, hr, _⟩ := ho; exact ⟨_, hr⟩

/-- What the variable of a target shows. -/
theorem Own.shows {h : Mem} {P : MTgt} {t : Tgt} {fp : List Nat} (ho : Own h P t fp) :
    ∃ v fp', h.read P.place = some v ∧ SlotShows h t.val v fp' ∧ fp'.Nodup ∧ ∀ a ∈ fp', a ∈ fp := by
  obtain ⟨ho, hn, ha⟩ := ho
  cases P with
  | leaf l p =>
    obtain ⟨s, v, rfl, hr, hv⟩ := ho
    by_cases hl : l = .null
    · subst hl
      rw [if_pos rfl] at hv
      refine ⟨v, [], hr, ?_, List.nodup_nil, fun _ h => by cases h⟩
      simp only [Tgt.val, SlotShows, VarShows]
      exact ⟨hv.1, trivial⟩
    · rw [if_neg hl] at hv
      refine ⟨v, fp, hr, ?_, hn, fun _ h => h⟩
      have : (Tgt.leaf l s).val = s := by cases l <;> first | rfl | exact absurd rfl hl
      rw [this]; exact hv
  | array i p =>
    obtain ⟨items, a, cs, fps, rfl, hr, hcs, hs, rfl⟩ := ho
    cases hall : allSome items with
    | none =>
      refine ⟨_, [], hr, ?_, List.nodup_nil, fun _ h => by cases h⟩
      simp only [Tgt.val, hall, Option.map_none, SlotShows]
      exact ⟨trivial, fun bs h => by cases h⟩
    | some xs =>
      refine ⟨_, _, hr, ?_, hn, fun _ h => h⟩
      have hlen := allSome_length hall
      simp only [Tgt.val, hall, Option.map_some, SlotShows, VarShows]
      exact ⟨a, cs, fps, by rw [hlen], hcs, by rw [hlen]; exact hs.all hall, rfl⟩
  | map i p w =>
    obtain ⟨hinted, pend, cur, a, es, keys, vals, U, fv, rfl, hr, hes, hw, hk, hkk, hvs, hU, hcur, rfl⟩ := ho
    cases cur with
    | none =>
      refine ⟨_, [], hr, ?_, List.nodup_nil, fun _ h => by cases h⟩
      simp only [Tgt.val, Option.map_none, SlotShows]
      exact ⟨trivial, fun bs h => by cases h⟩
    | some m =>
      obtain ⟨hc, hm⟩ := hcur m rfl
      have hnU : (objs U).Nodup := by
        simp only [List.nodup_cons, List.nodup_append] at hn
        exact hn.2.2.2.1
      obtain ⟨fp, h5, h6, h7⟩ := CurIn.shows hc (sorted_keys_nodup hm) hU hnU
      refine ⟨_, a :: fp, hr, ?_, ?_, ?_⟩
      · simp only [Tgt.val, Option.map_some, SlotShows, VarShows]
        exact ⟨a, es, fp, rfl, hes, h5, rfl⟩
      · rw [List.nodup_cons]
        refine ⟨fun hmem => ?_, h6⟩
        simp only [List.nodup_cons] at hn
        exact hn.1 (by simp [h7 a hmem])
      · intro b hb
        rcases List.mem_cons.mp hb with rfl | hb
        · simp
        · simp [h7 b hb]
  | union ts p =>
    obtain ⟨tag, sel, slots, vs, rfl, hr, hs, hlen⟩ := ho
    cases sel with
    | none =>
      refine ⟨_, [], hr, ?_, List.nodup_nil, fun _ h => by cases h⟩
      simp only [Tgt.val, SlotShows, VarShows]
      exact .inl ⟨vs, rfl, by simp only [MemberShows]⟩
    | some j =>
      by_cases hj : BitVec.ofInt 64 (j : Nat) = tag
      · by_cases hlt : j < slots.length
        · obtain ⟨v, f, g, e1, e2, e3, _⟩ := hs.focus hlt
          cases hsl : slotAt slots j with
          | none =>
            refine ⟨_, [], hr, ?_, List.nodup_nil, fun _ h => by cases h⟩
            simp only [Tgt.val, if_pos hj, hsl, Option.map_none, SlotShows]
            exact ⟨trivial, fun bs h => by cases h⟩
          | some x =>
            rw [hsl] at e2
            refine ⟨_, f, hr, ?_, ?_, ?_⟩
            · simp only [Tgt.val, if_pos hj, hsl, Option.map_some, SlotShows, VarShows]
              exact .inl ⟨vs, rfl, by simp only [MemberShows]; exact ⟨j, v, hj, e1, e2⟩⟩
            · exact (List.nodup_append.mp (e3.nodup_iff.mp hn)).1
            · intro a ha; exact e3.mem_iff.mpr (List.mem_append_left _ ha)
        · refine ⟨_, [], hr, ?_, List.nodup_nil, fun _ h => by cases h⟩
          have : slotAt slots j = none := by
            simp only [slotAt, List.getElem?_eq_none_iff.mpr (Nat.le_of_not_lt hlt)]
          simp only [Tgt.val, if_pos hj, this, Option.map_none, SlotShows]
          exact ⟨trivial, fun bs h => by cases h⟩
      · refine ⟨_, [], hr, ?_, List.nodup_nil, fun _ h => by cases h⟩
        simp only [Tgt.val, if_neg hj, SlotShows]
        exact ⟨trivial, fun bs h => by cases h⟩
  | record fs p =>
    obtain ⟨slots, tag, vs, rfl, hr, hs, hlen⟩ := ho
    cases hall : allSome slots with
    | none =>
      refine ⟨_, [], hr, ?_, List.nodup_nil, fun _ h => by cases h⟩
      simp only [Tgt.val, hall, Option.map_none, SlotShows]
      exact ⟨trivial, fun bs h => by cases h⟩
    | some xs =>
      refine ⟨_, fp, hr, ?_, hn, fun _ h => h⟩
      simp only [Tgt.val, hall, Option.map_some, SlotShows, VarShows]
      exact ⟨tag, vs, rfl, hs.all hall⟩
  | bad p =>
    obtain ⟨rfl, rfl, v, hr, hv⟩ := ho
    exact ⟨v, [], hr, ⟨rfl, hv⟩, List.nodup_nil, fun _ h => h⟩

/-- The objects of a target exist. -/
theorem Own.lt {h : Mem} {P : MTgt} {t : Tgt} {fp : List Nat} (ho : Own h P t fp) : ∀ a ∈ fp, a < h.length := by
  obtain ⟨ho, _, _⟩ := ho
  cases P with
  | leaf l p =>
    obtain ⟨s, v, rfl, hr, hv⟩ := ho
    by_cases hl : l = .null
    · rw [if_pos hl] at hv
      intro a ha
      rw [hv.2] at ha
      cases ha
    · rw [if_neg hl] at hv
      exact hv.lt
  | array i p =>
    obtain ⟨items, a, cs, fps, rfl, hr, hcs, hs, rfl⟩ := ho
    intro x hx
    rcases List.mem_cons.mp hx with rfl | hx
    · exact (List.getElem?_eq_some_iff.mp hcs).1
    · exact hs.lt x hx
  | map i p w =>
    obtain ⟨hinted, pend, cur, a, es, keys, vals, U, fv, rfl, hr, hes, hw, hk, hkk, hvs, hU, hcur, rfl⟩ := ho
    intro x hx
    rcases List.mem_cons.mp hx with rfl | hx
    · exact (List.getElem?_eq_some_iff.mp hes).1
    rcases List.mem_cons.mp hx with rfl | hx
    · exact (List.getElem?_eq_some_iff.mp hw).1
    rcases List.mem_append.mp hx with hx | hx
    · rcases hvs with ⟨_, _, rfl⟩ | ⟨b, cs, _, hcs, _, rfl⟩
      · cases hx
      · simp only [List.mem_cons, List.not_mem_nil, or_false] at hx
        subst hx
        exact (List.getElem?_eq_some_iff.mp hcs).1
    · obtain ⟨u, hu, hau⟩ := List.mem_flatMap.mp hx
      exact (hU u hu).lt x hau
  | union ts p =>
    obtain ⟨tag, sel, slots, vs, rfl, hr, hs, hlen⟩ := ho
    exact hs.lt
  | record fs p =>
    obtain ⟨slots, tag, vs, rfl, hr, hs, hlen⟩ := ho
    exact hs.lt
  | bad p =>
    obtain ⟨_, rfl, _⟩ := ho
    intro a ha
    cases ha

/-- A target stands for what it did if its objects are as they were. -/
theorem Own.frame {h h' : Mem} {P : MTgt} {t : Tgt} {fp : List Nat} (ho : Own h P t fp) (hp : h'[P.place.id]? = h[P.place.id]?)
    (hf : ∀ a ∈ fp, h'[a]? = h[a]?) : Own h' P t fp := by
  obtain ⟨ho, hn, ha⟩ := ho
  refine ⟨?_, hn, ha⟩
  cases P with
  | leaf l p =>
    obtain ⟨s, v, rfl, hr, hv⟩ := ho
    refine ⟨s, v, rfl, (Mem.read_congr hp).trans hr, ?_⟩
    by_cases hl : l = .null
    · rw [if_pos hl] at hv ⊢; exact hv
    · rw [if_neg hl] at hv ⊢; exact hv.frame hf
  | array i p =>
    obtain ⟨items, a, cs, fps, rfl, hr, hcs, hs, rfl⟩ := ho
    exact ⟨items, a, cs, fps, rfl, (Mem.read_congr hp).trans hr, by rw [hf a (by simp), hcs],
      hs.frame (fun x hx => hf x (by simp [hx])), rfl⟩
  | map i p w =>
    obtain ⟨hinted, pend, cur, a, es, keys, vals, U, fv, rfl, hr, hes, hw, hk, hkk, hvs, hU, hcur, rfl⟩ := ho
    refine ⟨hinted, pend, cur, a, es, keys, vals, U, fv, rfl, (Mem.read_congr hp).trans hr, by rw [hf a (by simp), hes],
      by rw [hf w (by simp), hw], hk, hkk, ?_, ?_, hcur, rfl⟩
    · rcases hvs with h' | ⟨b, cs, e1, e2, e3, rfl⟩
      · exact .inl h'
      · exact .inr ⟨b, cs, e1, by rw [hf b (by simp), e2], e3, rfl⟩
    · intro u hu
      refine (hU u hu).frame (fun x hx => hf x ?_)
      simp only [List.mem_cons, List.mem_append]
      exact .inr (.inr (.inr (List.mem_flatMap.mpr ⟨u, hu, hx⟩)))
  | union ts p =>
    obtain ⟨tag, sel, slots, vs, rfl, hr, hs, hlen⟩ := ho
    exact ⟨tag, sel, slots, vs, rfl, (Mem.read_congr hp).trans hr, hs.frame hf, hlen⟩
  | record fs p =>
    obtain ⟨slots, tag, vs, rfl, hr, hs, hlen⟩ := ho
    exact ⟨slots, tag, vs, rfl, (Mem.read_congr hp).trans hr, hs.frame hf, hlen⟩
  | bad p =>
    obtain ⟨e1, e2, v, hr, e3⟩ := ho
    exact ⟨e1, e2, v, (Mem.read_congr hp).trans hr, e3⟩
end Verif
