import Verif.Gen.Serialize
import Verif.Schema.Bisim
/-
Values and their serialization under schemas that mean the same.
-/
set_option linter.unusedSimpArgs false
set_option linter.unusedVariables false
namespace Verif
open Spec

section
variable {e e' : Env} {R : Ty → Ty → Prop}

theorem isNull_step (h : Bisim e e' R) {t t' : Ty} (ht : R t t') : t.isNull = t'.isNull := by
  cases h _ _ ht <;> rfl

theorem nullIndexFrom_twin (h : Bisim e e' R) {ts ts' : List Ty} (ht : Each R ts ts') : ∀ i, nullIndexFrom i ts = nullIndexFrom i ts' := by
  induction ht with
  | nil => intro i; rfl
  | cons h1 _ ih => intro i; simp only [nullIndexFrom, isNull_step h h1, ih]

theorem nullable_twin (h : Bisim e e' R) {ts ts' : List Ty} (ht : Each R ts ts') :
    (Ty.union ts).nullable = (Ty.union ts').nullable := by
  simp only [Ty.nullable]
  induction ht with
  | nil => rfl
  | cons h1 _ ih => simp only [List.any_cons, isNull_step h h1, ih]

mutual
theorem hasTy_twin (h : Bisim e e' R) {lim : Nat} : ∀ (v : Val) (t t' : Ty), R t t' → HasTy e lim v t → HasTy e' lim v t'
  | .null, t, t', ht, hv => by cases (hv : t = _); cases h _ _ ht; rfl
  | .bool _, t, t', ht, hv => by cases (hv : t = _); cases h _ _ ht; rfl
  | .int _, t, t', ht, hv => by cases (hv : t = _); cases h _ _ ht; rfl
  | .long _, t, t', ht, hv => by cases (hv : t = _); cases h _ _ ht; rfl
  | .float _, t, t', ht, hv => by cases (hv : t = _); cases h _ _ ht; rfl
  | .double _, t, t', ht, hv => by cases (hv : t = _); cases h _ _ ht; rfl
  | .bytes _, t, t', ht, hv => by obtain ⟨rfl, hv⟩ := hv; cases h _ _ ht; exact ⟨rfl, hv⟩
  | .string _, t, t', ht, hv => by obtain ⟨rfl, hv⟩ := hv; cases h _ _ ht; exact ⟨rfl, hv⟩
  | .fixed x, t, t', ht, hv => by
    obtain ⟨q, d, rfl, h1, h2⟩ := hv
    cases h _ _ ht with
    | prim hp => simp [primitives] at hp
    | @ref _ q' d1 d' e1 e2 _ _ e5 =>
      rw [h1] at e1; cases e1
      rw [h2] at e5
      refine ⟨q', d', rfl, e2, ?_⟩
      revert e5; generalize d'.kind = k; intro e5; cases e5; rfl
  | .enum i, t, t', ht, hv => by
    obtain ⟨q, d, ss, dflt, rfl, h1, h2, h3⟩ := hv
    cases h _ _ ht with
    | prim hp => simp [primitives] at hp
    | @ref _ q' d1 d' e1 e2 _ _ e5 =>
      rw [h1] at e1; cases e1
      rw [h2] at e5
      refine ⟨q', d', ss, dflt, rfl, e2, ?_, h3⟩
      revert e5; generalize d'.kind = k; intro e5; cases e5; rfl
  | .array vs, t, t', ht, hv => by
    obtain ⟨item, rfl, h1, h2⟩ := hv
    cases h _ _ ht with
    | prim hp => simp [primitives] at hp
    | array h3 => exact ⟨_, rfl, h1, allHaveTy_twin h vs _ _ h3 h2⟩
  | .map es, t, t', ht, hv => by
    obtain ⟨item, rfl, h1, h2, h4⟩ := hv
    cases h _ _ ht with
    | prim hp => simp [primitives] at hp
    | map h3 => exact ⟨_, rfl, h1, h2, entriesHaveTy_twin h es _ _ h3 h4⟩
  | .nil, t, t', ht, hv => by
    obtain ⟨ts, rfl, h1, h2⟩ := hv
    cases h _ _ ht with
    | prim hp => simp [primitives] at hp
    | union h3 => exact ⟨_, rfl, by rw [← nullable_twin h h3]; exact h1, by rw [← each_length h3]; exact h2⟩
  | .union _ none, t, t', ht, hv => hv.elim
  | .union tag (some v), t, t', ht, hv => by
    obtain ⟨ts, u, rfl, h1, h2, h3, h4⟩ := hv
    cases h _ _ ht with
    | prim hp => simp [primitives] at hp
    | @union _ ts' h5 =>
      rcases each_get h5 tag.toNat with ⟨a, _⟩ | ⟨a, b, e1, e2, e3⟩
      · rw [h1] at a; cases a
      · rw [h1] at e1; cases e1
        exact ⟨ts', b, rfl, e2, by rw [← each_length h5]; exact h2, by rw [← isNull_step h e3]; exact h3,
          hasTy_twin h v _ _ e3 h4⟩
  | .record vs, t, t', ht, hv => by
    obtain ⟨q, d, fs, rfl, h1, h2, h3⟩ := hv
    cases h _ _ ht with
    | prim hp => simp [primitives] at hp
    | @ref _ q' d1 d' e1 e2 _ _ e5 =>
      rw [h1] at e1; cases e1
      rw [h2] at e5
      obtain ⟨fs', h4, h5⟩ : ∃ fs', d'.kind = .record fs' ∧ Each (FieldTwin R) fs fs' := by
        revert e5; generalize d'.kind = k; intro e5
        cases e5 with
        | record h => exact ⟨_, rfl, h⟩
      exact ⟨q', d', fs', rfl, e2, h4, fieldsHaveTy_twin h vs _ _ h5 h3⟩
theorem allHaveTy_twin (h : Bisim e e' R) {lim : Nat} : ∀ (vs : List Val) (t t' : Ty), R t t' → AllHaveTy e lim vs t → AllHaveTy e' lim vs t'
  | [], _, _, _, _ => trivial
  | v :: vs, t, t', ht, hv => ⟨hasTy_twin h v t t' ht hv.1, allHaveTy_twin h vs t t' ht hv.2⟩
theorem entriesHaveTy_twin (h : Bisim e e' R) {lim : Nat} : ∀ (vs : List (List Byte × Val)) (t t' : Ty), R t t' →
    EntriesHaveTy e lim vs t → EntriesHaveTy e' lim vs t'
  | [], _, _, _, _ => trivial
  | (k, v) :: vs, t, t', ht, hv => ⟨hv.1, hasTy_twin h v t t' ht hv.2.1, entriesHaveTy_twin h vs t t' ht hv.2.2⟩
theorem fieldsHaveTy_twin (h : Bisim e e' R) {lim : Nat} : ∀ (vs : List Val) (fs fs' : List Field), Each (FieldTwin R) fs fs' →
    FieldsHaveTy e lim vs fs → FieldsHaveTy e' lim vs fs'
  | [], fs, fs', hf, hv => by
    cases hf with
    | nil => exact hv
    | cons _ _ => cases (hv : _ = _)
  | v :: vs, fs, fs', hf, hv => by
    cases hf with
    | nil => obtain ⟨f, fs, h0, _⟩ := hv; cases h0
    | cons h1 h2 =>
      obtain ⟨f, fs, h0, h3, h4⟩ := hv
      cases h0
      exact ⟨_, _, rfl, hasTy_twin h v _ _ h1.ty h3, fieldsHaveTy_twin h vs _ _ h2 h4⟩
end

mutual
theorem ser_twin (h : Bisim e e' R) (bw : Bool) (ord : MapOrder) : ∀ (v : Val) (t t' : Ty) (p : List Nat), R t t' →
    ser e bw ord v t p = ser e' bw ord v t' p
  | .null, t, t', p, ht => by cases h _ _ ht <;> rfl
  | .bool _, t, t', p, ht => by cases h _ _ ht <;> rfl
  | .int _, t, t', p, ht => by cases h _ _ ht <;> rfl
  | .long _, t, t', p, ht => by cases h _ _ ht <;> rfl
  | .float _, t, t', p, ht => by cases h _ _ ht <;> rfl
  | .double _, t, t', p, ht => by cases h _ _ ht <;> rfl
  | .bytes _, t, t', p, ht => by cases h _ _ ht <;> rfl
  | .string _, t, t', p, ht => by cases h _ _ ht <;> rfl
  | .fixed _, t, t', p, ht => by cases h _ _ ht <;> rfl
  | .enum _, t, t', p, ht => by cases h _ _ ht <;> rfl
  | .array vs, t, t', p, ht => by
    cases h _ _ ht with
    | array h3 => simp only [ser, serItems_twin h bw ord vs _ _ 0 p h3]
    | prim hp =>
      simp only [primitives, List.mem_cons, List.not_mem_nil, or_false] at hp
      rcases hp with rfl | rfl | rfl | rfl | rfl | rfl | rfl | rfl <;> rfl
    | _ => rfl
  | .map vs, t, t', p, ht => by
    cases h _ _ ht with
    | map h3 => simp only [ser, serEntries_twin h bw ord vs _ _ 0 p h3]
    | prim hp =>
      simp only [primitives, List.mem_cons, List.not_mem_nil, or_false] at hp
      rcases hp with rfl | rfl | rfl | rfl | rfl | rfl | rfl | rfl <;> rfl
    | _ => rfl
  | .nil, t, t', p, ht => by
    cases h _ _ ht with
    | union h3 => simp only [ser, nullIndex, nullIndexFrom_twin h h3]
    | prim hp =>
      simp only [primitives, List.mem_cons, List.not_mem_nil, or_false] at hp
      rcases hp with rfl | rfl | rfl | rfl | rfl | rfl | rfl | rfl <;> rfl
    | _ => rfl
  | .union tag none, t, t', p, ht => by cases h _ _ ht <;> rfl
  | .union tag (some v), t, t', p, ht => by
    cases h _ _ ht with
    | @union ts ts' h3 =>
      simp only [ser, nullIndex, nullIndexFrom_twin h h3]
      congr 1
      by_cases ht : 0 ≤ tag.toInt
      · rw [if_pos ht, if_pos ht]
        rcases each_get h3 tag.toInt.toNat with ⟨a, b⟩ | ⟨a, b, e1, e2, e3⟩
        · rw [a, b]
        · rw [e1, e2]; simp only [ser_twin h bw ord v _ _ _ e3]; congr
      · rw [if_neg ht, if_neg ht]
    | prim hp =>
      simp only [primitives, List.mem_cons, List.not_mem_nil, or_false] at hp
      rcases hp with rfl | rfl | rfl | rfl | rfl | rfl | rfl | rfl <;> rfl
    | _ => rfl
  | .record vs, t, t', p, ht => by
    cases h _ _ ht with
    | @ref q q' d d' e1 e2 _ _ e5 =>
      simp only [ser, e1, e2]
      revert e5; generalize d.kind = k; generalize d'.kind = k'; intro e5
      cases e5 with
      | record h1 => exact serFields_twin h bw ord vs _ _ 0 p h1
      | enum => rfl
      | fixed => rfl
    | prim hp =>
      simp only [primitives, List.mem_cons, List.not_mem_nil, or_false] at hp
      rcases hp with rfl | rfl | rfl | rfl | rfl | rfl | rfl | rfl <;> rfl
    | _ => rfl
theorem serItems_twin (h : Bisim e e' R) (bw : Bool) (ord : MapOrder) : ∀ (vs : List Val) (t t' : Ty) (i : Nat) (p : List Nat), R t t' →
    serItems e bw ord vs t i p = serItems e' bw ord vs t' i p
  | [], _, _, _, _, _ => rfl
  | v :: vs, t, t', i, p, ht => by
    simp only [serItems, ser_twin h bw ord v t t' _ ht, serItems_twin h bw ord vs t t' _ _ ht]
theorem serEntries_twin (h : Bisim e e' R) (bw : Bool) (ord : MapOrder) : ∀ (vs : List (List Byte × Val)) (t t' : Ty) (i : Nat)
    (p : List Nat), R t t' → serEntries e bw ord vs t i p = serEntries e' bw ord vs t' i p
  | [], _, _, _, _, _ => rfl
  | (k, v) :: vs, t, t', i, p, ht => by
    simp only [serEntries, ser_twin h bw ord v t t' _ ht, serEntries_twin h bw ord vs t t' _ _ ht]
theorem serFields_twin (h : Bisim e e' R) (bw : Bool) (ord : MapOrder) : ∀ (vs : List Val) (fs fs' : List Field) (i : Nat)
    (p : List Nat), Each (FieldTwin R) fs fs' → serFields e bw ord vs fs i p = serFields e' bw ord vs fs' i p
  | [], fs, fs', i, p, hf => by cases hf <;> rfl
  | v :: vs, fs, fs', i, p, hf => by
    cases hf with
    | nil => rfl
    | cons h1 h2 => simp only [serFields, ser_twin h bw ord v _ _ _ h1.ty, serFields_twin h bw ord vs _ _ _ _ h2]
end
end
end Verif
