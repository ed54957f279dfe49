import Verif.Gen.AnyWriter
/-
What a serializer does depends on the order of maps below its own path only, so that orders chosen for the parts
of a value can be put together.
-/
namespace Verif

/-- The two orders agree below `p`. -/
def SameBelow (p : List Nat) (a b : MapOrder) : Prop := ∀ q n, a.idx (q ++ p) n = b.idx (q ++ p) n

theorem SameBelow.child {p : List Nat} {a b : MapOrder} (h : SameBelow p a b) (i : Nat) : SameBelow (i :: p) a b := by
  intro q n
  have := h (q ++ [i]) n
  simpa using this

section
variable (env : Env) (bw : Bool)

mutual
theorem ser_below (a b : MapOrder) : ∀ (v : Val) (t : Ty) (p : List Nat), SameBelow p a b → ser env bw a v t p = ser env bw b v t p
  | .null, t, _, _ => by cases t <;> rfl
  | .bool _, t, _, _ => by cases t <;> rfl
  | .int v, t, _, _ => by cases t <;> rfl
  | .long v, t, _, _ => by cases t <;> rfl
  | .float v, t, _, _ => by cases t <;> rfl
  | .double v, t, _, _ => by cases t <;> rfl
  | .bytes v, t, _, _ => by cases t <;> rfl
  | .string v, t, _, _ => by cases t <;> rfl
  | .fixed _, t, _, _ => by cases t <;> rfl
  | .enum v, t, _, _ => by cases t <;> rfl
  | .array vs, t, p, h => by
    cases t <;> first | rfl | skip
    simp only [ser, serItems_below a b vs _ 0 p h]
  | .map es, t, p, h => by
    cases t <;> first | rfl | skip
    have := h [] 
    simp only [List.nil_append] at this
    simp only [ser, serEntries_below a b es _ 0 p h, MapOrder.perm, this]
  | .nil, t, _, _ => by cases t <;> rfl
  | .union tag none, t, _, _ => by cases t <;> rfl
  | .union tag (some v), t, p, h => by
    cases t <;> first | rfl | skip
    simp only [ser]
    congr 1
    split
    · rfl
    · rw [ser_below a b v _ _ (h.child 0)]
  | .record vs, t, p, h => by
    cases t <;> first | rfl | skip
    simp only [ser]
    split
    · split
      · exact serFields_below a b vs _ 0 p h
      · rfl
    · rfl
theorem serItems_below (a b : MapOrder) : ∀ (vs : List Val) (t : Ty) (i : Nat) (p : List Nat), SameBelow p a b →
    serItems env bw a vs t i p = serItems env bw b vs t i p
  | [], _, _, _, _ => rfl
  | v :: vs, t, i, p, h => by
    simp only [serItems]
    rw [ser_below a b v t _ (h.child i), serItems_below a b vs t (i + 1) p h]
theorem serEntries_below (a b : MapOrder) : ∀ (es : List (List Byte × Val)) (t : Ty) (i : Nat) (p : List Nat), SameBelow p a b →
    serEntries env bw a es t i p = serEntries env bw b es t i p
  | [], _, _, _, _ => rfl
  | (k, v) :: es, t, i, p, h => by
    simp only [serEntries]
    rw [ser_below a b v t _ (h.child i), serEntries_below a b es t (i + 1) p h]
theorem serFields_below (a b : MapOrder) : ∀ (vs : List Val) (fs : List Field) (i : Nat) (p : List Nat), SameBelow p a b →
    serFields env bw a vs fs i p = serFields env bw b vs fs i p
  | [], fs, _, _, _ => by cases fs <;> rfl
  | v :: vs, fs, i, p, h => by
    cases fs with
    | nil => rfl
    | cons f fs =>
      simp only [serFields]
      rw [ser_below a b v f.ty _ (h.child i), serFields_below a b vs fs (i + 1) p h]
end

/-! Lists by position -/

theorem serItems_get (ord : MapOrder) : ∀ (vs : List Val) (t : Ty) (k : Nat) (p : List Nat) (i : Nat),
    (serItems env bw ord vs t k p)[i]? = (vs[i]?).map fun v => ser env bw ord v t ((k + i) :: p)
  | [], _, _, _, _ => rfl
  | v :: vs, t, k, p, 0 => rfl
  | v :: vs, t, k, p, i + 1 => by
    have := serItems_get ord vs t (k + 1) p i
    simp only [serItems, List.getElem?_cons_succ, this]
    congr 2; funext v; congr 2; omega

theorem serEntries_get (ord : MapOrder) : ∀ (es : List (List Byte × Val)) (t : Ty) (k : Nat) (p : List Nat) (i : Nat),
    (serEntries env bw ord es t k p)[i]? =
      (es[i]?).map fun e => SerOut.andThen (writeString bw e.1, true) (ser env bw ord e.2 t ((k + i) :: p))
  | [], _, _, _, _ => rfl
  | (_, v) :: es, t, k, p, 0 => rfl
  | (_, v) :: es, t, k, p, i + 1 => by
    have := serEntries_get ord es t (k + 1) p i
    simp only [serEntries, List.getElem?_cons_succ, this]
    congr 2; funext v; congr 3; omega

end

/-- One order of its own at `p`, and one for each part below it. -/
def MapOrder.combine (p : List Nat) (own : MapOrder) (parts : Nat → MapOrder) : MapOrder where
  idx path n := match path[path.length - p.length - 1]? with
    | none => own.idx path n
    | some i => if path.length ≤ p.length then own.idx path n else (parts i).idx path n
  idxPerm path n := by
    split
    · exact own.idxPerm _ _
    · split
      · exact own.idxPerm _ _
      · exact MapOrder.idxPerm _ _ _

theorem combine_own (p : List Nat) (own : MapOrder) (parts : Nat → MapOrder) (n : Nat) :
    (MapOrder.combine p own parts).idx p n = own.idx p n := by
  simp only [MapOrder.combine]
  split
  · rfl
  · rw [if_pos (Nat.le_refl _)]

theorem combine_part (p : List Nat) (own : MapOrder) (parts : Nat → MapOrder) (i : Nat) :
    SameBelow (i :: p) (MapOrder.combine p own parts) (parts i) := by
  intro q n
  have e : (q ++ i :: p).length - p.length - 1 = q.length := by simp only [List.length_append, List.length_cons]; omega
  simp only [MapOrder.combine, e]
  rw [show (q ++ i :: p)[q.length]? = some i by simp]
  simp only
  rw [if_neg (by simp only [List.length_append, List.length_cons]; omega)]

/-- The same order everywhere, given the number of entries. -/
def MapOrder.always (f : Nat → List Nat) (h : ∀ n, (f n).Perm (List.range n)) : MapOrder := ⟨fun _ n => f n, fun _ n => h n⟩

end Verif
