import Verif.Generic.PlacesRep
/-
`Datum()` of a datum in memory: what it returns shows what `Datum()` of the target returns.
-/
namespace Verif
set_option linter.unusedVariables false

/-- How often an object that has come into being between `lo` and `hi` may be used. -/
def freshCount (lo hi x : Nat) : Nat := if lo ≤ x ∧ x < hi then 1 else 0

theorem freshCount_add {lo mid hi x : Nat} (h1 : lo ≤ mid) (h2 : mid ≤ hi) : freshCount lo mid x + freshCount mid hi x = freshCount lo hi x := by
  unfold freshCount
  by_cases hx : x < mid
  · rw [if_neg (by omega : ¬(mid ≤ x ∧ x < hi))]
    by_cases hl : lo ≤ x
    · rw [if_pos ⟨hl, hx⟩, if_pos ⟨hl, by omega⟩]
    · rw [if_neg (by omega), if_neg (by omega)]
  · rw [if_neg (by omega : ¬(lo ≤ x ∧ x < mid))]
    by_cases hh : x < hi
    · rw [if_pos ⟨by omega, hh⟩, if_pos ⟨by omega, hh⟩]
    · rw [if_neg (by omega), if_neg (by omega)]

/-- The value is made of objects in `D`, of objects in `fp`, and of new ones, as many times as these are listed. -/
def TakenFrom (D : Nat → Prop) (lo hi : Nat) (fp mf : List Nat) : Prop := ∀ x, ¬ D x → mf.count x ≤ fp.count x + freshCount lo hi x

theorem TakenFrom.append {D : Nat → Prop} {lo mid hi : Nat} {f1 f2 m1 m2 : List Nat} (h1 : TakenFrom D lo mid f1 m1) (h2 : TakenFrom D mid hi f2 m2)
    (hl : lo ≤ mid) (hh : mid ≤ hi) : TakenFrom D lo hi (f1 ++ f2) (m1 ++ m2) := by
  intro x hx
  have a := h1 x hx
  have b := h2 x hx
  have c := freshCount_add (x := x) hl hh
  simp only [List.count_append]
  omega

/-- A new object around it. -/
theorem TakenFrom.wrap {D : Nat → Prop} {lo hi a : Nat} {f m m' : List Nat} (h : TakenFrom D lo hi f m) (hm : ∀ x, m'.count x ≤ m.count x) (hl : lo ≤ hi) :
    TakenFrom D lo (hi + 1) (a :: f) (hi :: m') := by
  intro x hx
  have h1 := h x hx
  have h2 := hm x
  have h3 := freshCount_add (x := x) hl (Nat.le_succ hi)
  have h4 : freshCount hi (hi + 1) x = if hi == x then 1 else 0 := by
    unfold freshCount
    by_cases h : hi = x
    · subst h; simp
    · rw [if_neg (by omega)]; simp [h]
  simp only [List.count_cons]
  rw [Nat.succ_eq_add_one] at h3
  omega

theorem TakenFrom.mono {D : Nat → Prop} {lo hi : Nat} {f f' m : List Nat} (h : TakenFrom D lo hi f m) (hf : ∀ x, f.count x ≤ f'.count x) : TakenFrom D lo hi f' m :=
  fun x hx => Nat.le_trans (h x hx) (Nat.add_le_add_right (hf x) _)

theorem fieldsMadeOf_zip {H : Heap} : ∀ {ks : List Str} {gs vs mf}, ItemsMadeOf H gs vs mf →
    ∃ mf', FieldsMadeOf H (ks.zip gs) (ks.zip vs) mf' ∧ ∀ x, mf'.count x ≤ mf.count x
  | [], gs, vs, mf, h => ⟨[], by simp [FieldsMadeOf], by simp⟩
  | k :: ks, [], vs, mf, h => by
    obtain ⟨rfl, rfl⟩ := h
    exact ⟨[], by simp [FieldsMadeOf], by simp⟩
  | k :: ks, g :: gs, vs, mf, h => by
    obtain ⟨v, vs', f1, f2, rfl, h1, h2, rfl⟩ := h
    obtain ⟨mf', h3, h4⟩ := fieldsMadeOf_zip (ks := ks) h2
    refine ⟨f1 ++ mf', ⟨v, ks.zip vs', f1, mf', rfl, h1, h3, rfl⟩, fun x => ?_⟩
    have := h4 x
    simp only [List.count_append]
    omega

theorem entriesMadeOf_zip {H : Heap} : ∀ {ks : List (List Byte)} {gs vs mf}, ItemsMadeOf H gs vs mf →
    ∃ mf', EntriesMadeOf H (ks.zip gs) (ks.zip vs) mf' ∧ ∀ x, mf'.count x ≤ mf.count x
  | [], gs, vs, mf, h => ⟨[], by simp [EntriesMadeOf], by simp⟩
  | k :: ks, [], vs, mf, h => by
    obtain ⟨rfl, rfl⟩ := h
    exact ⟨[], by simp [EntriesMadeOf], by simp⟩
  | k :: ks, g :: gs, vs, mf, h => by
    obtain ⟨v, vs', f1, f2, rfl, h1, h2, rfl⟩ := h
    obtain ⟨mf', h3, h4⟩ := entriesMadeOf_zip (ks := ks) h2
    refine ⟨f1 ++ mf', ⟨v, ks.zip vs', f1, mf', rfl, h1, h3, rfl⟩, fun x => ?_⟩
    have := h4 x
    simp only [List.count_append]
    omega

theorem allKeyed_eq {α β : Type} : ∀ os : List (α × Option β), allKeyed os = (allSome (os.map (·.2))).map ((os.map (·.1)).zip ·)
  | [] => rfl
  | (_, none) :: _ => rfl
  | (k, some v) :: l => by
    simp only [allKeyed, allKeyed_eq l, List.map_cons, allSome]
    cases allSome (l.map (·.2)) <;> rfl

section
variable {env : Env} {D : Nat → Prop}

theorem DEntries.items {h : GHeap} {a : Nat} : ∀ {as os fp}, DEntries env D h a as os fp → DItems env D h a (as.map (·.2)) (os.map (·.2)) fp ∧ as.map (·.1) = os.map (·.1)
  | _, _, _, .nil => ⟨.nil, rfl⟩
  | _, _, _, .cons h1 h2 h3 => ⟨.cons h1 h2 h3.items.1, by simp [h3.items.2]⟩

theorem DSlots.items {h : GHeap} {a : Nat} : ∀ {as os fp}, DSlots env D h a as os fp →
    (allSome as = none → allSome os = none) ∧ ∀ bs, allSome as = some bs → DItems env D h a bs os fp
  | _, _, _, .nil => ⟨fun h => (Option.some_ne_none _ h).elim, fun bs h => by cases h; exact .nil⟩
  | _, _, _, .skip h1 => ⟨fun _ => rfl, fun bs h => by cases h⟩
  | _, _, _, .cons (as := as) (os := os) (s := s) h1 h2 h3 => by
    obtain ⟨e1, e2⟩ := h3.items
    simp only [allSome]
    cases ha : allSome as with
    | none =>
      refine ⟨fun _ => ?_, fun bs h => by cases h⟩
      cases s.datum with
      | none => rfl
      | some g => simp [allSome, e1 ha]
    | some bs => exact ⟨fun h => (by cases h), fun bs' h => (by cases h; exact .cons h1 h2 (e2 bs ha))⟩

theorem seen_append {h X : GHeap} : seen (h ++ X) = seen h ++ seen X := by simp [seen]
theorem seen_length {h : GHeap} : (seen h).length = h.length := by simp [seen]

theorem seen_last {h : GHeap} {o : Obj} : (seen (h ++ [.obj o]))[h.length]? = some o := by simp [seen, GCell.seen]

/-- What `Datum()` does with a bound on the depth. -/
def DatumOK (env : Env) (D : Nat → Prop) (L n : Nat) (f : Nat → GHeap → Option (HVal × GHeap)) : Prop :=
  ∀ (a : Nat) (h : GHeap) (t : GTgt) (fp : List Nat), DRep env D h a t fp → (∀ x ∈ fp, x < L) → L ≤ a + n → L ≤ h.length → (∀ x, D x → x < h.length) →
    (t.datum = none → f a h = none) ∧ ∀ g, t.datum = some g → ∃ v X mf, f a h = some (v, h ++ X) ∧ MadeOf (seen (h ++ X)) g v mf ∧
      TakenFrom D h.length (h ++ X).length fp mf

theorem eachDatum_ok {L n : Nat} {f : Nat → GHeap → Option (HVal × GHeap)} (hf : DatumOK env D L n f) {a : Nat} (ha : L ≤ a + (n + 1)) :
    ∀ {as os fp} {h : GHeap}, DItems env D h a as os fp → (∀ x ∈ fp, x < L) → L ≤ h.length → (∀ x, D x → x < h.length) →
    (allSome os = none → eachDatum f as h = none) ∧ ∀ gs, allSome os = some gs → ∃ vs X mf, eachDatum f as h = some (vs, h ++ X) ∧
      ItemsMadeOf (seen (h ++ X)) gs vs mf ∧ TakenFrom D h.length (h ++ X).length fp mf
  | _, _, _, h, .nil, _, _, _ => ⟨fun h => (Option.some_ne_none _ h).elim, fun gs hg => by
      cases hg
      exact ⟨[], [], [], by simp [eachDatum], ⟨rfl, rfl⟩, fun x _ => by simp⟩⟩
  | _, _, _, h, .cons (b := b) (s := s) (f := fb) (as := as) (os := os) (fp := fp) h1 h2 h3, hfp, hL, hD => by
    obtain ⟨e1, e2⟩ := hf b h s fb h2 (fun x hx => hfp x (by simp [hx])) (by omega) hL hD
    cases hs : s.datum with
    | none =>
      refine ⟨fun _ => ?_, fun gs hg => by cases hg⟩
      simp only [eachDatum, e1 hs]
    | some g =>
      obtain ⟨v, X, mf, c1, c2, c3⟩ := e2 g hs
      have hlen : h.length ≤ (h ++ X).length := by simp
      have hi := h3.frame (h' := h ++ X) (fun x hx => List.getElem?_append_left (hD x hx))
        (fun x hx => List.getElem?_append_left (Nat.lt_of_lt_of_le (hfp x (by simp [hx])) hL))
      obtain ⟨i1, i2⟩ := eachDatum_ok hf ha hi (fun x hx => hfp x (by simp [hx])) (Nat.le_trans hL hlen) (fun x hx => Nat.lt_of_lt_of_le (hD x hx) hlen)
      simp only [allSome, eachDatum, c1]
      cases ho : allSome os with
      | none => exact ⟨fun _ => by simp only [i1 ho], fun gs hg => by cases hg⟩
      | some gs =>
        obtain ⟨vs, Y, mf2, k1, k2, k3⟩ := i2 gs ho
        refine ⟨fun hg => by simp at hg, fun gs' hg => ?_⟩
        simp only [Option.map_some, Option.some.injEq] at hg
        subst hg
        refine ⟨v :: vs, X ++ Y, mf ++ mf2, by simp only [k1, List.append_assoc], ⟨v, vs, mf, mf2, rfl, ?_, ?_, rfl⟩, ?_⟩
        · rw [← List.append_assoc, seen_append]
          exact c2.same (sameAt_append fun x hx => c2.sealed.lt hx)
        · rw [← List.append_assoc]; exact k2
        · have := c3.append k3 hlen (by simp)
          rw [← List.append_assoc]; exact this

theorem PrimShows.made {h : GHeap} {v : HVal} {g : GVal} {fp : List Nat} (hp : PrimShows D h v g fp) (a lo : Nat) : ∃ mf, MadeOf (seen h) g v mf ∧ TakenFrom D lo lo (a :: fp) mf := by
  cases hp with
  | atom hf => exact ⟨[], (by cases g <;> first | exact ⟨rfl, rfl⟩ | cases hf), fun x _ => (by simp)⟩
  | @bytes x bs hx =>
    refine ⟨[x], ⟨x, rfl, by rw [seen_get, hx]; rfl, rfl⟩, fun y _ => ?_⟩
    simp only [List.count_cons]
    omega
  | @json j v jf hj hd =>
    refine ⟨jf, hj, fun y hy => ?_⟩
    have : jf.count y = 0 := List.count_eq_zero.mpr fun hm => hy (hd y hm)
    omega

theorem datumAt_ok (L : Nat) : ∀ n, DatumOK env D L n (datumAt n)
  | 0 => by
    intro a h t fp hr hfp ha
    have := hfp a hr.head
    omega
  | n + 1 => by
    have ih := datumAt_ok L n
    intro a h t fp hr hfp ha hL hD
    cases hr with
    | @prim _ v _ _ h1 h2 =>
      simp only [datumAt, datum_of h1, GTgt.datum]
      refine ⟨fun h => (Option.some_ne_none _ h).elim, fun g hg => ?_⟩
      cases hg
      obtain ⟨mf, h3, h4⟩ := h2.made a h.length
      exact ⟨v, [], mf, by simp, by simpa using h3, by simpa using h4⟩
    | enum h1 =>
      simp only [datumAt, datum_of h1, GTgt.datum]
      refine ⟨fun h => (Option.some_ne_none _ h).elim, fun g hg => ?_⟩
      cases hg
      exact ⟨_, [], [], by simp, ⟨rfl, rfl⟩, fun x _ => by simp⟩
    | @array _ item as os fp h1 h2 =>
      obtain ⟨i1, i2⟩ := eachDatum_ok ih ha h2 (fun x hx => hfp x (by simp [hx])) hL hD
      simp only [datumAt, datum_of h1, GTgt.datum]
      cases ho : allSome os with
      | none => exact ⟨fun _ => by simp only [i1 ho], fun g hg => by cases hg⟩
      | some gs =>
        obtain ⟨vs, X, mf, k1, k2, k3⟩ := i2 gs ho
        refine ⟨fun hg => by simp at hg, fun g hg => ?_⟩
        simp only [Option.map_some, Option.some.injEq] at hg
        subst hg
        refine ⟨.ref (h ++ X).length, X ++ [.obj (.list vs)], (h ++ X).length :: mf, by simp only [k1, List.append_assoc],
          ⟨_, vs, mf, rfl, by rw [← List.append_assoc, seen_last], ?_, rfl⟩, ?_⟩
        · rw [← List.append_assoc, seen_append]
          exact k2.same (sameAt_append fun x hx => k2.sealed.lt hx)
        · have := k3.wrap (a := a) (fun _ => Nat.le_refl _) (by simp)
          rw [← List.append_assoc, List.length_append (bs := [_])]
          exact this
    | @map _ item as os fp h1 h2 =>
      obtain ⟨hi, hk⟩ := h2.items
      obtain ⟨i1, i2⟩ := eachDatum_ok ih ha hi (fun x hx => hfp x (by simp [hx])) hL hD
      simp only [datumAt, datum_of h1, GTgt.datum, allKeyed_eq]
      cases ho : allSome (os.map (·.2)) with
      | none => exact ⟨fun _ => by simp only [i1 ho], fun g hg => by cases hg⟩
      | some gs =>
        obtain ⟨vs, X, mf, k1, k2, k3⟩ := i2 gs ho
        refine ⟨fun hg => by simp at hg, fun g hg => ?_⟩
        simp only [Option.map_some, Option.some.injEq] at hg
        subst hg
        obtain ⟨mf', m1, m2⟩ := entriesMadeOf_zip (ks := os.map (·.1)) k2
        refine ⟨.ref (h ++ X).length, X ++ [.obj (.map ((os.map (·.1)).zip vs))], (h ++ X).length :: mf', by simp only [k1, List.append_assoc, hk],
          ⟨_, _, mf', rfl, by rw [← List.append_assoc, seen_last], ?_, rfl⟩, ?_⟩
        · rw [← List.append_assoc, seen_append]
          exact m1.same (sameAt_append fun x hx => m1.sealed.lt hx)
        · have := k3.wrap (a := a) m2 (by simp)
          rw [← List.append_assoc, List.length_append (bs := [_])]
          exact this
    | unionNil h1 =>
      simp only [datumAt, datum_of h1, GTgt.datum]
      exact ⟨fun _ => trivial, fun g hg => by cases hg⟩
    | @union _ ts b s fp h1 h2 h3 =>
      obtain ⟨e1, e2⟩ := ih b h s fp h3 (fun x hx => hfp x (by simp [hx])) (by omega) hL hD
      simp only [datumAt, datum_of h1, GTgt.datum]
      refine ⟨e1, fun g hg => ?_⟩
      obtain ⟨v, X, mf, c1, c2, c3⟩ := e2 g hg
      exact ⟨v, X, mf, c1, c2, c3.mono fun x => by simp only [List.count_cons]; omega⟩
    | @record _ fs as os fp h1 hf h2 =>
      obtain ⟨s1, s2⟩ := h2.items
      simp only [datumAt, datum_of h1, GTgt.datum, recordView]
      cases has : allSome as with
      | none =>
        rw [s1 has]
        exact ⟨fun _ => rfl, fun g hg => by cases hg⟩
      | some bs =>
        obtain ⟨i1, i2⟩ := eachDatum_ok ih ha (s2 bs has) (fun x hx => hfp x (by simp [hx])) hL hD
        simp only
        cases ho : allSome os with
        | none => exact ⟨fun _ => by simp only [i1 ho], fun g hg => by cases hg⟩
        | some gs =>
          obtain ⟨vs, X, mf, k1, k2, k3⟩ := i2 gs ho
          refine ⟨fun hg => by simp at hg, fun g hg => ?_⟩
          simp only [Option.map_some, Option.some.injEq] at hg
          subst hg
          obtain ⟨mf', m1, m2⟩ := fieldsMadeOf_zip (ks := fs.map (·.name)) k2
          refine ⟨.ref (h ++ X).length, X ++ [.obj (.record ((fs.map (·.name)).zip vs))], (h ++ X).length :: mf', by simp only [k1, List.append_assoc],
            ⟨_, _, mf', rfl, by rw [← List.append_assoc, seen_last], ?_, rfl⟩, ?_⟩
          · rw [← List.append_assoc, seen_append]
            exact m1.same (sameAt_append fun x hx => m1.sealed.lt hx)
          · have := k3.wrap (a := a) m2 (by simp)
            rw [← List.append_assoc, List.length_append (bs := [_])]
            exact this
    | bad h1 =>
      simp only [datumAt, datum_of h1, GTgt.datum]
      exact ⟨fun _ => trivial, fun g hg => by cases hg⟩
end
end Verif
