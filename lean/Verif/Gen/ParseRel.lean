import Verif.Gen.Parse
import Verif.Wire.Chunked
/-
Comparing what `parse` does on two readers, or with two bounds: one proof that serves
monotonicity in the bound, independence of the kind of reader, and absence of look-ahead.
-/
namespace Verif
set_option linter.unusedSimpArgs false
set_option linter.unusedVariables false
variable {R₁ R₂ : Type}

section
variable (b : Bool) (P : R₁ → Prop) (S : R₁ → R₂ → Prop)

/-- What `f₁` reads, `f₂` reads as well, on related readers; if `b`, it also has the same
errors. `P` restricts this to executions that end in a state satisfying it. -/
structure RelF {α : Type} (f₁ : R₁ → Out (α × R₁)) (f₂ : R₂ → Out (α × R₂)) : Prop where
  back : ∀ r a r', f₁ r = .done (a, r') → P r' → P r
  fwd : ∀ r a r', f₁ r = .done (a, r') → P r' → ∀ s, S r s →
    ∃ s', f₂ s = .done (a, s') ∧ S r' s'
  err : b = true → ∀ r e, f₁ r = .err e → ∀ s, S r s → f₂ s = .err e

/-- The same of a primitive reader. -/
structure RelP {α : Type} (f₁ : R₁ → Except Err (α × R₁)) (f₂ : R₂ → Except Err (α × R₂)) : Prop where
  back : ∀ r a r', f₁ r = .ok (a, r') → P r' → P r
  fwd : ∀ r a r', f₁ r = .ok (a, r') → P r' → ∀ s, S r s → ∃ s', f₂ s = .ok (a, s') ∧ S r' s'
  err : b = true → ∀ r e, f₁ r = .error e → ∀ s, S r s → f₂ s = .error e

variable {b P S}

theorem relF_done {α : Type} (a : α) :
    RelF b P S (fun r => .done (a, r)) (fun r => .done (a, r)) where
  back r a' r' h hp := by cases h; exact hp
  fwd r a' r' h hp s hs := by cases h; exact ⟨s, rfl, hs⟩
  err _ r e h := by cases h

theorem relF_err {α : Type} (e : Err) :
    RelF (α := α) b P S (fun _ => .err e) (fun _ => .err e) where
  back r a' r' h hp := by cases h
  fwd r a' r' h hp s hs := by cases h
  err _ r e h s hs := by cases h; rfl

theorem relF_timeout {α : Type} (f : R₂ → Out (α × R₂)) :
    RelF b P S (fun _ => .timeout) f where
  back r a' r' h hp := by cases h
  fwd r a' r' h hp s hs := by cases h
  err _ r e h s hs := by cases h

/-- A primitive reader followed by something. -/
def pbind {R : Type} {α β : Type} (x : Except Err (α × R)) (g : α → R → Out (β × R)) : Out (β × R) :=
  match x with
  | .error e => .err e
  | .ok (a, r) => g a r

theorem relF_pbind {α β : Type} (hb : b = true → ∀ r, P r) {f₁ : R₁ → Except Err (α × R₁)}
    {f₂ : R₂ → Except Err (α × R₂)} {g₁ : α → R₁ → Out (β × R₁)} {g₂ : α → R₂ → Out (β × R₂)}
    (hf : RelP b P S f₁ f₂) (hg : ∀ a, RelF b P S (g₁ a) (g₂ a)) :
    RelF b P S (fun r => pbind (f₁ r) g₁) (fun r => pbind (f₂ r) g₂) where
  back r c r' h hp := by
    simp only [pbind] at h
    cases h1 : f₁ r with
    | error e => rw [h1] at h; cases h
    | ok x =>
      obtain ⟨a, r1⟩ := x
      rw [h1] at h
      exact hf.back r a r1 h1 ((hg a).back r1 c r' h hp)
  fwd r c r' h hp s hs := by
    simp only [pbind] at h ⊢
    cases h1 : f₁ r with
    | error e => rw [h1] at h; cases h
    | ok x =>
      obtain ⟨a, r1⟩ := x
      rw [h1] at h
      obtain ⟨s1, h2, hs1⟩ := hf.fwd r a r1 h1 ((hg a).back r1 c r' h hp) s hs
      rw [h2]
      exact (hg a).fwd r1 c r' h hp s1 hs1
  err hb' r e h s hs := by
    simp only [pbind] at h ⊢
    cases h1 : f₁ r with
    | error e' => rw [h1] at h; cases h; rw [hf.err hb' r e h1 s hs]
    | ok x =>
      obtain ⟨a, r1⟩ := x
      rw [h1] at h
      obtain ⟨s1, h2, hs1⟩ := hf.fwd r a r1 h1 (hb hb' r1) s hs
      rw [h2]
      exact (hg a).err hb' r1 e h s1 hs1

theorem relF_bind {α β : Type} (hb : b = true → ∀ r, P r) {f₁ : R₁ → Out (α × R₁)}
    {f₂ : R₂ → Out (α × R₂)} {g₁ : α → R₁ → Out (β × R₁)} {g₂ : α → R₂ → Out (β × R₂)}
    (hf : RelF b P S f₁ f₂) (hg : ∀ a, RelF b P S (g₁ a) (g₂ a)) :
    RelF b P S (fun r => (f₁ r).bind fun x => g₁ x.1 x.2) (fun r => (f₂ r).bind fun x => g₂ x.1 x.2) where
  back r c r' h hp := by
    simp only [Out.bind] at h
    cases h1 : f₁ r with
    | timeout => rw [h1] at h; cases h
    | err e => rw [h1] at h; cases h
    | done x =>
      obtain ⟨a, r1⟩ := x
      rw [h1] at h
      exact hf.back r a r1 h1 ((hg a).back r1 c r' h hp)
  fwd r c r' h hp s hs := by
    simp only [Out.bind] at h ⊢
    cases h1 : f₁ r with
    | timeout => rw [h1] at h; cases h
    | err e => rw [h1] at h; cases h
    | done x =>
      obtain ⟨a, r1⟩ := x
      rw [h1] at h
      obtain ⟨s1, h2, hs1⟩ := hf.fwd r a r1 h1 ((hg a).back r1 c r' h hp) s hs
      rw [h2]
      exact (hg a).fwd r1 c r' h hp s1 hs1
  err hb' r e h s hs := by
    simp only [Out.bind] at h ⊢
    cases h1 : f₁ r with
    | timeout => rw [h1] at h; cases h
    | err e' => rw [h1] at h; cases h; rw [hf.err hb' r e h1 s hs]
    | done x =>
      obtain ⟨a, r1⟩ := x
      rw [h1] at h
      obtain ⟨s1, h2, hs1⟩ := hf.fwd r a r1 h1 (hb hb' r1) s hs
      rw [h2]
      exact (hg a).err hb' r1 e h s1 hs1

theorem lift_eq {R : Type} {α : Type} (g : α → Datum) (x : Except Err (α × R)) :
    lift g x = pbind x fun a r => .done (g a, r) := by
  cases x <;> rfl

theorem relF_lift {α : Type} (hb : b = true → ∀ r, P r) (g : α → Datum)
    {f₁ : R₁ → Except Err (α × R₁)} {f₂ : R₂ → Except Err (α × R₂)} (hf : RelP b P S f₁ f₂) :
    RelF b P S (fun r => lift g (f₁ r)) (fun r => lift g (f₂ r)) := by
  simp only [lift_eq]
  exact relF_pbind hb hf fun a => relF_done (g a)

theorem relF_rep {α : Type} (hb : b = true → ∀ r, P r) {p₁ : R₁ → Out (α × R₁)}
    {p₂ : R₂ → Out (α × R₂)} (hp : RelF b P S p₁ p₂) :
    ∀ k, RelF b P S (parseRep p₁ k) (parseRep p₂ k)
  | 0 => relF_done []
  | k + 1 => relF_bind hb hp fun a =>
      relF_bind (g₁ := fun l r => .done (a :: l, r)) (g₂ := fun l r => .done (a :: l, r)) hb
        (relF_rep hb hp k) fun l => relF_done (a :: l)

variable (b P S) in
/-- The primitive readers agree. -/
structure Prims (o₁ : ReaderOps R₁) (o₂ : ReaderOps R₂) : Prop where
  all : b = true → ∀ r, P r
  bool : RelP b P S (readBool o₁) (readBool o₂)
  int : RelP b P S (readInt o₁) (readInt o₂)
  long : RelP b P S (readLong o₁) (readLong o₂)
  float : RelP b P S (readFloat o₁) (readFloat o₂)
  double : RelP b P S (readDouble o₁) (readDouble o₂)
  bytes : RelP b P S (readBytes o₁) (readBytes o₂)
  string : RelP b P S (readString o₁) (readString o₂)
  fixed : ∀ n, RelP b P S (readFixed o₁ n) (readFixed o₂ n)

variable {o₁ : ReaderOps R₁} {o₂ : ReaderOps R₂} (h : Prims b P S o₁ o₂) (lim : Nat) (we : Env)
include h

theorem relF_blocks {α : Type} {p₁ : R₁ → Out (α × R₁)}
    {p₂ : R₂ → Out (α × R₂)} (hp : RelF b P S p₁ p₂) :
    ∀ n m, n ≤ m → ∀ first, RelF b P S (parseBlocks o₁ lim p₁ n first) (parseBlocks o₂ lim p₂ m first)
  | 0, m, _, first => by
    have e0 : parseBlocks o₁ lim p₁ 0 first = fun _ => .timeout := by funext r; rw [parseBlocks]
    rw [e0]; exact relF_timeout _
  | n + 1, 0, hm, first => by omega
  | n + 1, m + 1, hm, first => by
    have hi : ∀ c, RelF b P S (parseBlocks.items o₁ lim p₁ n first c)
        (parseBlocks.items o₂ lim p₂ m first c) := by
      intro c
      have e0 : ∀ {R : Type} (o : ReaderOps R) (p : R → Out (α × R)) (n : Nat),
          parseBlocks.items o lim p n first c = if first ∧ (c.toInt < 0 ∨ (lim : Int) < c.toInt)
            then fun _ => .err .panic
            else fun r => (parseRep p c.toNat r).bind fun x =>
              (parseBlocks o lim p n false x.2).bind fun y => .done (x.1 ++ y.1, y.2) := by
        intro R o p n; funext r; rw [parseBlocks.items]; split <;> rfl
      rw [e0, e0]
      split
      · exact relF_err _
      · refine relF_bind
          (g₁ := fun a r => (parseBlocks o₁ lim p₁ n false r).bind fun y => .done (a ++ y.1, y.2))
          (g₂ := fun a r => (parseBlocks o₂ lim p₂ m false r).bind fun y => .done (a ++ y.1, y.2))
          h.all (relF_rep h.all hp c.toNat) fun a => ?_
        exact relF_bind (g₁ := fun l r => .done (a ++ l, r)) (g₂ := fun l r => .done (a ++ l, r))
          h.all (relF_blocks hp n m (by omega) false) fun l => relF_done (a ++ l)
    have e1 : ∀ {R : Type} (o : ReaderOps R) (p : R → Out (α × R)) (n : Nat),
        parseBlocks o lim p (n + 1) first = fun r => pbind (readLong o r) fun c r1 =>
          if c = 0 then .done ([], r1) else if 0 < c.toInt then parseBlocks.items o lim p n first c r1
          else pbind (readLong o r1) fun _ r2 => parseBlocks.items o lim p n first (-c) r2 := by
      intro R o p n
      funext r
      rw [parseBlocks]
      simp only [pbind]
      cases readLong o r with
      | error e => rfl
      | ok x =>
        obtain ⟨c, r1⟩ := x
        simp only
        cases readLong o r1 <;> rfl
    rw [e1, e1]
    refine relF_pbind h.all h.long fun c => ?_
    split
    · exact relF_done []
    · split
      · exact hi c
      · exact relF_pbind h.all h.long fun _ => hi (-c)

theorem relF_fields {p₁ : Ty → R₁ → Out (Datum × R₁)} {p₂ : Ty → R₂ → Out (Datum × R₂)}
    (hp : ∀ t, RelF b P S (p₁ t) (p₂ t)) :
    ∀ fs, RelF b P S (parseFields p₁ fs) (parseFields p₂ fs)
  | [] => relF_done []
  | f :: fs => relF_bind h.all (hp f.ty) fun a =>
      relF_bind (g₁ := fun l r => .done (a :: l, r)) (g₂ := fun l r => .done (a :: l, r)) h.all
        (relF_fields hp fs) fun l => relF_done (a :: l)

theorem relF_entry {p₁ : R₁ → Out (Datum × R₁)} {p₂ : R₂ → Out (Datum × R₂)}
    (hp : RelF b P S p₁ p₂) : RelF b P S (parseEntry o₁ p₁) (parseEntry o₂ p₂) := by
  have e1 : ∀ {R : Type} (o : ReaderOps R) (p : R → Out (Datum × R)), parseEntry o p =
      fun r => pbind (readString o r) fun k r1 => (p r1).bind fun x => .done ((k, x.1), x.2) := by
    intro R o p; funext r; unfold parseEntry; cases readString o r <;> rfl
  rw [e1, e1]
  exact relF_pbind h.all h.string fun k =>
    relF_bind (g₁ := fun d r => .done ((k, d), r)) (g₂ := fun d r => .done ((k, d), r)) h.all hp
      fun d => relF_done (k, d)

/-- On related readers, what is read with a bound is read with every larger one. -/
theorem parse_rel : ∀ n m, n ≤ m → ∀ t, RelF b P S (parse o₁ lim we n t) (parse o₂ lim we m t)
  | 0, m, _, t => relF_timeout _
  | n + 1, 0, hm, t => by omega
  | n + 1, m + 1, hm, t => by
    have ih := parse_rel n m (by omega)
    cases t with
    | null => exact relF_done Datum.null
    | bool => exact relF_lift h.all _ h.bool
    | int => exact relF_lift h.all _ h.int
    | long => exact relF_lift h.all _ h.long
    | float => exact relF_lift h.all _ h.float
    | double => exact relF_lift h.all _ h.double
    | bytes => exact relF_lift h.all _ h.bytes
    | string => exact relF_lift h.all _ h.string
    | array t =>
      exact relF_bind (g₁ := fun l r => .done (Datum.array l, r)) (g₂ := fun l r => .done (Datum.array l, r))
        h.all (relF_blocks h lim (ih t) n m (by omega) true) fun l => relF_done _
    | map t =>
      exact relF_bind (g₁ := fun l r => .done (Datum.map l, r)) (g₂ := fun l r => .done (Datum.map l, r))
        h.all (relF_blocks h lim (relF_entry h (ih t)) n m (by omega) true) fun l => relF_done _
    | union ts =>
      have e1 : ∀ {R : Type} (o : ReaderOps R) (n : Nat), parse o lim we (n + 1) (.union ts) =
          fun r => pbind (readLong o r) fun v r1 => match atIndex ts v with
            | none => .err (.runtime .unsupportedUnion)
            | some t => (parse o lim we n t r1).bind fun x => .done (.union v.toNat x.1, x.2) := by
        intro R o n; funext r; rw [parse]; simp only [pbind]
        cases readLong o r with
        | error e => rfl
        | ok x => obtain ⟨v, r1⟩ := x; cases h1 : atIndex ts v <;> simp [h1]
      rw [e1, e1]
      refine relF_pbind h.all h.long fun v => ?_
      cases atIndex ts v with
      | none => exact relF_err _
      | some t =>
        exact relF_bind (g₁ := fun l r => .done (Datum.union v.toNat l, r))
          (g₂ := fun l r => .done (Datum.union v.toNat l, r)) h.all (ih t) fun l => relF_done _
    | ref q =>
      have e1 : ∀ {R : Type} (o : ReaderOps R) (n : Nat), parse o lim we (n + 1) (.ref q) =
          fun r => match we.find q with
            | none => .err .panic
            | some d => parseDef o (parse o lim we n) d r := by
        intro R o n; funext r; rw [parse]; cases we.find q <;> rfl
      rw [e1, e1]
      cases we.find q with
      | none => exact relF_err _
      | some d =>
        have e2 : ∀ {R : Type} (o : ReaderOps R) (p : Ty → R → Out (Datum × R)),
            (fun r => parseDef o p d r) = match d.kind with
              | .record fs => fun r => (parseFields p fs r).bind fun x => .done (.record x.1, x.2)
              | .enum _ _ => fun r => lift (fun v => .enum v.toInt) (readLong o r)
              | .fixed k => fun r => lift .fixed (readFixed o k r) := by
          intro R o p; funext r; unfold parseDef; cases d.kind <;> rfl
        simp only [e2]
        cases d.kind with
        | record fs =>
          exact relF_bind (g₁ := fun l r => .done (Datum.record l, r)) (g₂ := fun l r => .done (Datum.record l, r))
            h.all (relF_fields h ih fs) fun l => relF_done _
        | enum _ _ => exact relF_lift h.all _ h.long
        | fixed k => exact relF_lift h.all _ (h.fixed k)
end
end Verif
