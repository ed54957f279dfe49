import Verif.Gen.ParseRel
/-
What `parse` reads: independent of the bound, of the kind of reader, of what follows; and
it ends.
-/
namespace Verif
set_option linter.unusedSimpArgs false
set_option linter.unusedVariables false

/-! ### the bound does not matter -/

section
variable {R : Type} {ro : ReaderOps R} {lim : Nat} {we : Env}

theorem relP_eq {α : Type} (f : R → Except Err (α × R)) :
    RelP true (fun _ => True) Eq f f where
  back _ _ _ _ _ := trivial
  fwd r a r' h _ s hs := by subst hs; exact ⟨r', h, rfl⟩
  err _ r e h s hs := by subst hs; exact h

theorem prims_eq (ro : ReaderOps R) : Prims true (fun _ => True) Eq ro ro where
  all _ _ := trivial
  bool := relP_eq _
  int := relP_eq _
  long := relP_eq _
  float := relP_eq _
  double := relP_eq _
  bytes := relP_eq _
  string := relP_eq _
  fixed _ := relP_eq _

theorem parse_mono {n m : Nat} (h : n ≤ m) {t : Ty} {r : R} {x : Datum × R}
    (hx : parse ro lim we n t r = .done x) : parse ro lim we m t r = .done x := by
  obtain ⟨s, h1, h2⟩ := (parse_rel (prims_eq ro) lim we n m h t).fwd r x.1 x.2 hx trivial r rfl
  subst h2; exact h1

theorem parse_mono_err {n m : Nat} (h : n ≤ m) {t : Ty} {r : R} {e : Err}
    (hx : parse ro lim we n t r = .err e) : parse ro lim we m t r = .err e :=
  (parse_rel (prims_eq ro) lim we n m h t).err rfl r e hx r rfl

/-- Two bounds that both suffice give the same. -/
theorem parse_det {n m : Nat} {t : Ty} {r : R} {d d' : Datum} {r₁ r₂ : R}
    (h : parse ro lim we n t r = .done (d, r₁)) (h' : parse ro lim we m t r = .done (d', r₂)) :
    d = d' ∧ r₁ = r₂ := by
  have h1 := parse_mono (Nat.le_max_left n m) h
  have h2 := parse_mono (Nat.le_max_right n m) h'
  rw [h1] at h2
  simpa using h2

theorem parse_det_err {n m : Nat} {t : Ty} {r : R} {x : Datum × R} {e : Err}
    (h : parse ro lim we n t r = .done x) (h' : parse ro lim we m t r = .err e) : False := by
  have h1 := parse_mono (Nat.le_max_left n m) h
  have h2 := parse_mono_err (Nat.le_max_right n m) h'
  rw [h1] at h2; cases h2
end

/-! ### the kind of reader does not matter -/

section
variable {R : Type} {o : ReaderOps R} {view : R → List Byte}

theorem relP_view {α : Type} {f : R → Except Err (α × R)}
    {g : List Byte → Except Err (α × List Byte)} (h : ∀ r, vmap view (f r) = g (view r)) :
    RelP true (fun _ => True) (fun r s => view r = s) f g where
  back _ _ _ _ _ := trivial
  fwd r a r' hf _ s hs := by
    subst hs
    have := h r
    rw [hf] at this
    exact ⟨view r', this.symm, rfl⟩
  err _ r e hf s hs := by
    subst hs
    have := h r
    rw [hf] at this
    exact this.symm

theorem relP_view' {α : Type} {f : R → Except Err (α × R)}
    {g : List Byte → Except Err (α × List Byte)} (h : ∀ r, vmap view (f r) = g (view r)) :
    RelP true (fun _ => True) (fun s r => view r = s) g f where
  back _ _ _ _ _ := trivial
  fwd s a s' hg _ r hs := by
    subst hs
    have := h r
    rw [hg] at this
    cases hf : f r with
    | error e => rw [hf] at this; cases this
    | ok x => obtain ⟨a', r'⟩ := x; rw [hf] at this; cases this; exact ⟨r', rfl, rfl⟩
  err _ s e hg r hs := by
    subst hs
    have := h r
    rw [hg] at this
    cases hf : f r with
    | error e => rw [hf] at this; cases this; rfl
    | ok x => rw [hf] at this; cases this

theorem prims_view (h : o.Delivers view) :
    Prims true (fun _ => True) (fun r s => view r = s) o (flatOps o.byteReader) where
  all _ _ := trivial
  bool := relP_view (sim_readBool h)
  int := relP_view (sim_readInt h)
  long := relP_view (sim_readLong h)
  float := relP_view (sim_readFloat h)
  double := relP_view (sim_readDouble h)
  bytes := relP_view (sim_readSized h _)
  string := relP_view (sim_readSized h _)
  fixed n := relP_view (sim_readFixed h n)

theorem prims_view' (h : o.Delivers view) :
    Prims true (fun _ => True) (fun s r => view r = s) (flatOps o.byteReader) o where
  all _ _ := trivial
  bool := relP_view' (sim_readBool h)
  int := relP_view' (sim_readInt h)
  long := relP_view' (sim_readLong h)
  float := relP_view' (sim_readFloat h)
  double := relP_view' (sim_readDouble h)
  bytes := relP_view' (sim_readSized h _)
  string := relP_view' (sim_readSized h _)
  fixed n := relP_view' (sim_readFixed h n)

/-- On any reader, `parse` reads what it reads on the bytes the reader delivers. -/
theorem parse_view (h : o.Delivers view) {lim : Nat} {we : Env} {n : Nat} {t : Ty} {r : R}
    {d : Datum} {s : List Byte} :
    parse (flatOps o.byteReader) lim we n t (view r) = .done (d, s) →
      ∃ r', parse o lim we n t r = .done (d, r') ∧ view r' = s := fun hp =>
  (parse_rel (prims_view' h) lim we n n (Nat.le_refl n) t).fwd (view r) d s hp trivial r rfl

theorem parse_view_err (h : o.Delivers view) {lim : Nat} {we : Env} {n : Nat} {t : Ty} {r : R}
    {e : Err} : parse (flatOps o.byteReader) lim we n t (view r) = .err e →
      parse o lim we n t r = .err e := fun hp =>
  (parse_rel (prims_view' h) lim we n n (Nat.le_refl n) t).err rfl (view r) e hp r rfl

end

/-! ### no look-ahead -/

/-- What `f` reads is decided by the bytes it takes. -/
def Local {α : Type} (f : List Byte → Except Err (α × List Byte)) : Prop :=
  ∀ r v r', f r = .ok (v, r') → ∃ c, r = c ++ r' ∧ ∀ x, f (c ++ x) = .ok (v, x)

theorem local_readVarLoop (k : Bool) : ∀ (fuel : Nat) (v : BitVec 64) (s : Nat) (r r' : List Byte)
    (u : BitVec 64), readVarLoop (flatOps k) fuel v s r = .ok (u, r') →
    ∃ c, r = c ++ r' ∧ ∀ x fuel', c.length ≤ fuel' →
      readVarLoop (flatOps k) fuel' v s (c ++ x) = .ok (u, x) := by
  intro fuel
  induction fuel with
  | zero => intro v s r r' u h; simp [readVarLoop] at h
  | succ fuel ih =>
    intro v s r r' u h
    cases r with
    | nil => rw [readVarLoop, next_flat_nil] at h; cases h
    | cons b r =>
      rw [readVarLoop, next_flat_cons] at h
      simp only at h
      split at h
      · rename_i hb
        cases h
        refine ⟨[b], rfl, fun x fuel' hf => ?_⟩
        obtain ⟨m, rfl⟩ : ∃ m, fuel' = m + 1 := ⟨fuel' - 1, by simp at hf; omega⟩
        simp only [List.cons_append, List.nil_append]
        rw [readVarLoop, next_flat_cons]
        simp only
        rw [if_pos hb]
      · rename_i hb
        obtain ⟨c, rfl, hc⟩ := ih _ _ _ _ _ h
        refine ⟨b :: c, rfl, fun x fuel' hf => ?_⟩
        obtain ⟨m, rfl⟩ : ∃ m, fuel' = m + 1 := ⟨fuel' - 1, by simp at hf; omega⟩
        simp only [List.cons_append]
        rw [readVarLoop, next_flat_cons]
        simp only
        rw [if_neg hb, hc x m (by simpa using hf)]

theorem local_readVar (k : Bool) : Local (readVar (flatOps k)) := by
  intro r v r' h
  obtain ⟨c, h1, h2⟩ := local_readVarLoop k _ _ _ _ _ _ h
  exact ⟨c, h1, fun x => h2 x _ (by simp [flatOps]; omega)⟩

theorem local_map {α β : Type} {f : List Byte → Except Err (α × List Byte)} (g : α → β)
    (h : Local f) : Local (fun r => mapOk g (f r)) := by
  intro r v r' he
  simp only at he
  cases hf : f r with
  | error e => rw [hf] at he; cases he
  | ok p =>
    obtain ⟨a, r1⟩ := p
    rw [hf] at he
    cases he
    obtain ⟨c, h1, h2⟩ := h _ _ _ hf
    exact ⟨c, h1, fun x => by simp only [h2 x, mapOk]⟩

theorem local_bind {α β : Type} {f : List Byte → Except Err (α × List Byte)}
    {g : α → List Byte → Except Err (β × List Byte)}
    (h : Local f) (hg : ∀ a, Local (g a)) : Local (fun r => bindOk (f r) g) := by
  intro r v r' he
  simp only at he
  cases hf : f r with
  | error e => rw [hf] at he; cases he
  | ok p =>
    obtain ⟨a, r1⟩ := p
    rw [hf] at he
    simp only [bindOk] at he
    obtain ⟨c, rfl, h2⟩ := h _ _ _ hf
    obtain ⟨c', rfl, h4⟩ := hg a _ _ _ he
    refine ⟨c ++ c', by simp, fun x => ?_⟩
    simp only [List.append_assoc, h2, bindOk, h4]

theorem local_readFull (n : Nat) : Local (fun r => flatReadFull r n) := by
  intro r v r' h
  simp only [flatReadFull] at h
  split at h
  · rename_i hn
    cases h
    refine ⟨r.take n, (List.take_append_drop n r).symm, fun x => ?_⟩
    simp only [flatReadFull]
    have hl : (List.take n r).length = n := by simp; omega
    rw [if_pos (by simp; omega), List.take_append_of_le_length (by omega),
      List.drop_append_of_le_length (by omega), List.take_of_length_le (by omega),
      List.drop_of_length_le (by omega)]
    rfl
  · split at h <;> cases h

theorem local_ok {α : Type} (a : α) : Local fun r => .ok (a, r) := by
  intro r v r' h; cases h; exact ⟨[], rfl, fun x => rfl⟩

theorem local_error {α : Type} (e : Err) : Local (α := α) fun r => .error e := by
  intro r v r' h; cases h

theorem local_readInt (k : Bool) : Local (readInt (flatOps k)) := local_map unzigzag32 (local_readVar k)
theorem local_readLong (k : Bool) : Local (readLong (flatOps k)) := local_map unzigzag64 (local_readVar k)
theorem local_readDouble (k : Bool) : Local (readDouble (flatOps k)) :=
  local_map (fun bs => BitVec.ofNat 64 (leNat bs)) (local_readFull 8)
theorem local_readFloat (k : Bool) : Local (readFloat (flatOps k)) :=
  local_map (fun bs => BitVec.ofNat 32 (leNat bs)) (local_readFull 4)

theorem local_readSized (e : Err) (k : Bool) : Local (readSized e (flatOps k)) := by
  refine local_bind (local_readLong k) fun n => ?_
  by_cases h1 : n.toInt < 0 ∨ 2147483647 < n.toInt
  · simp only [if_pos h1]; exact local_error e
  · by_cases h2 : n = 0
    · simp only [if_neg h1, if_pos h2]; exact local_ok []
    · simp only [if_neg h1, if_neg h2]; exact local_readFull n.toNat

theorem local_readFixed (k : Bool) (n : Int) : Local (readFixed (flatOps k) n) := by
  unfold readFixed
  by_cases h1 : n < 0
  · simp only [if_pos h1]; exact local_error _
  · simp only [if_neg h1]; exact local_readFull n.toNat

section
variable (z x : List Byte)

/-- Runs that end with (at least) `z` left. -/
theorem relP_local {α : Type} {f : List Byte → Except Err (α × List Byte)} (h : Local f) :
    RelP false (fun r => z <:+ r) (fun r s => ∃ u, r = u ++ z ∧ s = u ++ x) f f where
  back r a r' hf hp := by
    obtain ⟨c, rfl, -⟩ := h _ _ _ hf
    exact hp.trans (List.suffix_append c r')
  fwd r a r' hf hp s hs := by
    obtain ⟨c, rfl, h2⟩ := h _ _ _ hf
    obtain ⟨u, rfl⟩ := hp
    obtain ⟨u', h3, rfl⟩ := hs
    have : u' = c ++ u := by
      rw [← List.append_assoc] at h3
      exact (List.append_cancel_right h3).symm
    subst this
    exact ⟨u ++ x, by rw [List.append_assoc, h2], u, rfl, rfl⟩
  err h := by cases h

theorem relP_local_bool (k : Bool) (hk : k = false ∨ z ≠ []) :
    RelP false (fun r => z <:+ r) (fun r s => ∃ u, r = u ++ z ∧ s = u ++ x)
      (readBool (flatOps k)) (readBool (flatOps k)) where
  back r a r' hf hp := by
    cases r with
    | nil =>
      cases k with
      | false => cases hf
      | true => cases hf; exact hp
    | cons b r => rw [readBool_cons] at hf; cases hf; exact hp.trans (List.suffix_cons b _)
  fwd r a r' hf hp s hs := by
    cases r with
    | nil =>
      cases k with
      | false => cases hf
      | true => cases hf; exfalso; simpa using hk.resolve_left (by simp) (by simpa using hp)
    | cons b r =>
      rw [readBool_cons] at hf; cases hf
      obtain ⟨u, rfl⟩ := hp
      obtain ⟨u', h3, rfl⟩ := hs
      have : u' = b :: u := by
        rw [← List.cons_append] at h3
        exact (List.append_cancel_right h3).symm
      subst this
      exact ⟨u ++ x, by rw [List.cons_append, readBool_cons], u, rfl, rfl⟩
  err h := by cases h

theorem prims_local (k : Bool) (hk : k = false ∨ z ≠ []) :
    Prims false (fun r => z <:+ r) (fun r s => ∃ u, r = u ++ z ∧ s = u ++ x)
      (flatOps k) (flatOps k) where
  all h := by cases h
  bool := relP_local_bool z x k hk
  int := relP_local z x (local_readInt k)
  long := relP_local z x (local_readLong k)
  float := relP_local z x (local_readFloat k)
  double := relP_local z x (local_readDouble k)
  bytes := relP_local z x (local_readSized _ k)
  string := relP_local z x (local_readSized _ k)
  fixed n := relP_local z x (local_readFixed k n)
end

/-- What is read is decided by the bytes taken; whatever follows is left alone. For readers
with `ReadByte` this needs a byte to follow, because of `readBool`. -/
theorem parse_local {k : Bool} {lim : Nat} {we : Env} {n : Nat} {t : Ty} {r z : List Byte} {d : Datum}
    (h : parse (flatOps k) lim we n t r = .done (d, z)) (hk : k = false ∨ z ≠ []) :
    ∃ c, r = c ++ z ∧ ∀ x, parse (flatOps k) lim we n t (c ++ x) = .done (d, x) := by
  have hr := fun x => parse_rel (prims_local z x k hk) lim we n n (Nat.le_refl n) t
  obtain ⟨c, rfl⟩ := (hr []).back r d z h (List.suffix_refl z)
  refine ⟨c, rfl, fun x => ?_⟩
  obtain ⟨s', h1, u, hu, h2⟩ := (hr x).fwd _ d z h (List.suffix_refl z) (c ++ x) ⟨c, rfl, rfl⟩
  have : u = [] := by simpa using hu
  subst this
  rw [h1, h2]; rfl

/-! ### it ends -/

theorem Local.shrink {α : Type} {f : List Byte → Except Err (α × List Byte)} (h : Local f) :
    ∀ r a r', f r = .ok (a, r') → r'.length ≤ r.length := by
  intro r a r' hf
  obtain ⟨c, rfl, -⟩ := h _ _ _ hf
  simp

/-- `f` gives something on inputs up to that length, and leaves no more than it got. -/
def Ends {α : Type} (L : Nat) (f : List Byte → Out (α × List Byte)) : Prop :=
  ∀ r, r.length ≤ L → f r ≠ .timeout ∧ ∀ a r', f r = .done (a, r') → r'.length ≤ r.length

theorem Ends.le {α : Type} {L L' : Nat} {f : List Byte → Out (α × List Byte)} (h : Ends L f)
    (hl : L' ≤ L) : Ends L' f := fun r hr => h r (by omega)

theorem ends_bind {α β : Type} {L : Nat} {f : List Byte → Out (α × List Byte)}
    {g : α → List Byte → Out (β × List Byte)} (hf : Ends L f) (hg : ∀ a, Ends L (g a)) :
    Ends L (fun r => (f r).bind fun x => g x.1 x.2) := by
  intro r hr
  obtain ⟨h1, h2⟩ := hf r hr
  simp only [Out.bind]
  cases h : f r with
  | timeout => exact absurd h h1
  | err e => exact ⟨by simp, by simp⟩
  | done x =>
    obtain ⟨a, r1⟩ := x
    have := h2 a r1 h
    obtain ⟨h3, h4⟩ := hg a r1 (by omega)
    refine ⟨h3, fun b r' hb => ?_⟩
    have := h4 b r' hb
    omega

theorem ends_done {α : Type} {L : Nat} (a : α) : Ends L (fun r => .done (a, r)) := by
  intro r hr
  refine ⟨by simp, fun a r' h => ?_⟩
  cases h; exact Nat.le_refl _

theorem ends_err {α : Type} {L : Nat} (e : Err) : Ends (α := α) L (fun r => .err e) := by
  intro r hr
  exact ⟨by simp, fun a r' h => by cases h⟩

theorem ends_lift {α : Type} {L : Nat} {g : α → Datum} {f : List Byte → Except Err (α × List Byte)}
    (h : ∀ r a r', f r = .ok (a, r') → r'.length ≤ r.length) : Ends L (fun r => lift g (f r)) := by
  intro r hr
  cases hf : f r with
  | error e => exact ⟨by simp [lift, hf], by simp [lift, hf]⟩
  | ok x =>
    obtain ⟨a, r1⟩ := x
    have := h r a r1 hf
    refine ⟨by simp [lift, hf], fun a r' h' => ?_⟩
    simp only [lift, hf, Out.done.injEq, Prod.mk.injEq] at h'
    obtain ⟨-, rfl⟩ := h'
    exact this

theorem ends_rep {α : Type} {L : Nat} {p : List Byte → Out (α × List Byte)} (hp : Ends L p) :
    ∀ c, Ends L (parseRep p c)
  | 0 => ends_done []
  | c + 1 => ends_bind hp fun a =>
      ends_bind (g := fun l r => .done (a :: l, r)) (ends_rep hp c) fun l => ends_done _

theorem ends_fields {L : Nat} {p : Ty → List Byte → Out (Datum × List Byte)} :
    ∀ fs : List Field, (∀ f ∈ fs, Ends L (p f.ty)) → Ends L (parseFields p fs)
  | [], _ => ends_done []
  | f :: fs, h => ends_bind (h f (by simp)) fun a =>
      ends_bind (g := fun l r => .done (a :: l, r))
        (ends_fields fs fun f hf => h f (List.mem_cons_of_mem _ hf)) fun l => ends_done _

theorem ends_entry {k : Bool} {L : Nat} {p : List Byte → Out (Datum × List Byte)} (hp : Ends L p) :
    Ends L (parseEntry (flatOps k) p) := by
  intro r hr
  unfold parseEntry
  cases hf : readString (flatOps k) r with
  | error e => exact ⟨by simp, by simp⟩
  | ok x =>
    obtain ⟨a, r1⟩ := x
    have hl := (local_readSized _ k).shrink r a r1 hf
    have := ends_bind (g := fun d r => .done ((a, d), r)) hp (fun d => ends_done (a, d)) r1 (by omega)
    refine ⟨this.1, fun b r' hb => ?_⟩
    have := this.2 b r' hb
    omega

/-- The blocks: the count of each takes a byte. -/
theorem ends_blocks {α : Type} {k : Bool} {lim : Nat} {p : List Byte → Out (α × List Byte)} :
    ∀ L, (∀ l, l < L → Ends l p) → ∀ n, L < n → ∀ first,
      Ends L (parseBlocks (flatOps k) lim p n first) := by
  intro L
  induction L using Nat.strongRecOn with
  | ind L ih =>
    intro hp n hn first r hr
    obtain ⟨m, rfl⟩ : ∃ m, n = m + 1 := ⟨n - 1, by omega⟩
    have key : ∀ c (r1 : List Byte), r1.length < r.length →
        parseBlocks.items (flatOps k) lim p m first c r1 ≠ .timeout ∧
        ∀ a r', parseBlocks.items (flatOps k) lim p m first c r1 = .done (a, r') →
          r'.length ≤ r.length := by
      intro c r1 h1
      unfold parseBlocks.items
      split
      · exact ⟨by simp, by simp⟩
      · have hr1 := ends_rep (hp r1.length (by omega)) c.toNat
        have hb := ih r1.length (by omega) (fun l hl => hp l (by omega)) m (by omega) false
        have := ends_bind (g := fun l r => (parseBlocks (flatOps k) lim p m false r).bind
          fun y => .done (l ++ y.1, y.2)) hr1 (fun l =>
            ends_bind (g := fun l' r => .done (l ++ l', r)) hb fun l' => ends_done _) r1 (Nat.le_refl _)
        refine ⟨this.1, fun a r' h => ?_⟩
        have := this.2 a r' h
        omega
    rw [parseBlocks]
    cases hl : readLong (flatOps k) r with
    | error e => exact ⟨by simp, by simp⟩
    | ok x =>
      obtain ⟨c, r1⟩ := x
      have h1 := readLong_consumes hl
      simp only
      split
      · refine ⟨by simp, fun a r' h => ?_⟩
        cases h; omega
      · split
        · exact key c r1 h1
        · cases hl2 : readLong (flatOps k) r1 with
          | error e => exact ⟨by simp, by simp⟩
          | ok x =>
            obtain ⟨c2, r2⟩ := x
            have h2 := readLong_consumes hl2
            exact key (-c) r2 (by omega)

/-- No record contains itself by way of record fields alone, so that a value of each type
can be finite. -/
def Grounded (env : Env) : Prop :=
  ∃ rank : QName → Nat, ∀ q d fs, env.find q = some d → d.kind = .record fs →
    ∀ f ∈ fs, ∀ q', f.ty = .ref q' → rank q' < rank q

theorem bound_list {α : Type} (P : Nat → α → Prop) (hm : ∀ a n m, n ≤ m → P n a → P m a) :
    ∀ l : List α, (∀ a ∈ l, ∃ n, P n a) → ∃ n, ∀ a ∈ l, P n a
  | [], _ => ⟨0, by simp⟩
  | a :: l, h => by
    obtain ⟨n, hn⟩ := h a (by simp)
    obtain ⟨m, hm'⟩ := bound_list P hm l fun a ha => h a (List.mem_cons_of_mem _ ha)
    refine ⟨max n m, fun b hb => ?_⟩
    rcases List.mem_cons.mp hb with rfl | hb
    · exact hm _ _ _ (Nat.le_max_left _ _) hn
    · exact hm _ _ _ (Nat.le_max_right _ _) (hm' b hb)

/-- On inputs up to any length, some bound suffices. -/
theorem parse_ends (k : Bool) (lim : Nat) (env : Env) (hg : Grounded env) :
    ∀ (L : Nat) (t : Ty), ∃ n, ∀ m, n ≤ m → Ends L (parse (flatOps k) lim env m t) := by
  obtain ⟨rank, hrank⟩ := hg
  intro L
  induction L using Nat.strongRecOn with
  | ind L ihL =>
    -- below L, for all types
    have low : ∀ t, ∃ n, ∀ m, n ≤ m → ∀ l, l < L → Ends l (parse (flatOps k) lim env m t) := by
      intro t
      cases L with
      | zero => exact ⟨0, fun m _ l hl => by omega⟩
      | succ L =>
        obtain ⟨n, hn⟩ := ihL L (by omega) t
        exact ⟨n, fun m hm l hl => (hn m hm).le (by omega)⟩
    -- types that are no references
    have flat : ∀ t, (∀ q, t ≠ .ref q) → ∃ n, ∀ m, n ≤ m → Ends L (parse (flatOps k) lim env m t) := by
      intro t ht
      have prim : (∀ m, Ends L (parse (flatOps k) lim env (m + 1) t)) →
          ∃ n, ∀ m, n ≤ m → Ends L (parse (flatOps k) lim env m t) := by
        intro h
        refine ⟨1, fun m hm => ?_⟩
        obtain ⟨m', rfl⟩ : ∃ m', m = m' + 1 := ⟨m - 1, by omega⟩
        exact h m'
      cases t with
      | null => exact prim fun m => ends_done Datum.null
      | bool =>
        refine prim fun m => ends_lift ?_
        intro r a r' h
        cases r with
        | nil =>
          cases k with
          | false => cases h
          | true => cases h; simp
        | cons b r => rw [readBool_cons] at h; cases h; simp
      | int => exact prim fun m => ends_lift (local_readInt k).shrink
      | long => exact prim fun m => ends_lift (local_readLong k).shrink
      | float => exact prim fun m => ends_lift (local_readFloat k).shrink
      | double => exact prim fun m => ends_lift (local_readDouble k).shrink
      | bytes => exact prim fun m => ends_lift (local_readSized _ k).shrink
      | string => exact prim fun m => ends_lift (local_readSized _ k).shrink
      | array t =>
        obtain ⟨n, hn⟩ := low t
        refine ⟨max n (L + 1) + 1, fun m hm => ?_⟩
        obtain ⟨m', rfl⟩ : ∃ m', m = m' + 1 := ⟨m - 1, by omega⟩
        exact ends_bind (g := fun l r => .done (Datum.array l, r))
          (ends_blocks L (hn m' (by omega)) m' (by omega) true) fun l => ends_done _
      | map t =>
        obtain ⟨n, hn⟩ := low t
        refine ⟨max n (L + 1) + 1, fun m hm => ?_⟩
        obtain ⟨m', rfl⟩ : ∃ m', m = m' + 1 := ⟨m - 1, by omega⟩
        exact ends_bind (g := fun l r => .done (Datum.map l, r))
          (ends_blocks L (fun l hl => ends_entry (hn m' (by omega) l hl)) m' (by omega) true)
          fun l => ends_done _
      | union ts =>
        obtain ⟨n, hn⟩ := bound_list
          (fun n t => ∀ m, n ≤ m → ∀ l, l < L → Ends l (parse (flatOps k) lim env m t))
          (fun t n m h hp m' hm' => hp m' (by omega)) ts (fun t _ => low t)
        refine ⟨n + 1, fun m hm => ?_⟩
        obtain ⟨m', rfl⟩ : ∃ m', m = m' + 1 := ⟨m - 1, by omega⟩
        intro r hr
        rw [parse]
        cases hl : readLong (flatOps k) r with
        | error e => exact ⟨by simp, by simp⟩
        | ok x =>
          obtain ⟨v, r1⟩ := x
          have h1 := readLong_consumes hl
          simp only
          cases ha : atIndex ts v with
          | none => exact ⟨by simp, by simp⟩
          | some t =>
            have hmem : t ∈ ts := by
              unfold atIndex at ha
              split at ha
              · exact List.mem_of_getElem? ha
              · cases ha
            have := ends_bind (g := fun l r => .done (Datum.union v.toNat l, r))
              (hn t hmem m' (by omega) r1.length (by omega)) (fun l => ends_done _) r1 (Nat.le_refl _)
            refine ⟨this.1, fun a r' h => ?_⟩
            have := this.2 a r' h
            omega
      | ref q => exact absurd rfl (ht q)
    -- references, by rank
    have refs : ∀ ρ q, rank q ≤ ρ →
        ∃ n, ∀ m, n ≤ m → Ends L (parse (flatOps k) lim env m (.ref q)) := by
      intro ρ
      induction ρ using Nat.strongRecOn with
      | ind ρ ihρ =>
        intro q hq
        have unf : ∀ m, parse (flatOps k) lim env (m + 1) (.ref q) = fun r => match env.find q with
            | none => .err .panic
            | some d => parseDef (flatOps k) (parse (flatOps k) lim env m) d r := by
          intro m; funext r; rw [parse]; cases env.find q <;> rfl
        cases hf : env.find q with
        | none =>
          refine ⟨1, fun m hm => ?_⟩
          obtain ⟨m', rfl⟩ : ∃ m', m = m' + 1 := ⟨m - 1, by omega⟩
          rw [unf]; simp only [hf]; exact ends_err _
        | some d =>
          cases hd : d.kind with
          | record fs =>
            obtain ⟨n, hn⟩ := bound_list
              (fun n (f : Field) => ∀ m, n ≤ m → Ends L (parse (flatOps k) lim env m f.ty))
              (fun t n m h hp m' hm' => hp m' (by omega)) fs (fun f hfs => by
                by_cases hr : ∃ q', f.ty = .ref q'
                · obtain ⟨q', hq'⟩ := hr
                  have := hrank q d fs hf hd f hfs q' hq'
                  rw [hq']
                  exact ihρ (rank q') (by omega) q' (Nat.le_refl _)
                · exact flat f.ty fun q' h => hr ⟨q', h⟩)
            refine ⟨n + 1, fun m hm => ?_⟩
            obtain ⟨m', rfl⟩ : ∃ m', m = m' + 1 := ⟨m - 1, by omega⟩
            rw [unf]; simp only [hf, parseDef, hd]
            exact ends_bind (g := fun l r => .done (Datum.record l, r))
              (ends_fields fs fun f hfs => hn f hfs m' (by omega)) fun l => ends_done _
          | enum _ _ =>
            refine ⟨1, fun m hm => ?_⟩
            obtain ⟨m', rfl⟩ : ∃ m', m = m' + 1 := ⟨m - 1, by omega⟩
            rw [unf]; simp only [hf, parseDef, hd]; exact ends_lift (local_readLong k).shrink
          | fixed c =>
            refine ⟨1, fun m hm => ?_⟩
            obtain ⟨m', rfl⟩ : ∃ m', m = m' + 1 := ⟨m - 1, by omega⟩
            rw [unf]; simp only [hf, parseDef, hd]; exact ends_lift (local_readFixed k c).shrink
    intro t
    by_cases hr : ∃ q, t = .ref q
    · obtain ⟨q, rfl⟩ := hr; exact refs (rank q) q (Nat.le_refl _)
    · exact flat t fun q h => hr ⟨q, h⟩

/-- `parse` gives a datum or an error. -/
theorem parse_total (k : Bool) (lim : Nat) (env : Env) (hg : Grounded env) (t : Ty) (r : List Byte) :
    ∃ n, (∃ d z, parse (flatOps k) lim env n t r = .done (d, z)) ∨
      (∃ e, parse (flatOps k) lim env n t r = .err e) := by
  obtain ⟨n, hn⟩ := parse_ends k lim env hg r.length t
  refine ⟨n, ?_⟩
  have := (hn n (Nat.le_refl _) r (Nat.le_refl _)).1
  cases h : parse (flatOps k) lim env n t r with
  | timeout => exact absurd h this
  | err e => exact .inr ⟨e, rfl⟩
  | done x => exact .inl ⟨x.1, x.2, rfl⟩

end Verif
