import Verif.Generic.Places
import Verif.Generic.HeapProof
/-
Which target of Generic/Target.lean a datum in memory stands for, and that the methods of both do the same.
-/
namespace Verif
set_option linter.unusedVariables false
set_option linter.unusedSimpArgs false

/-- A value that is copied when it is assigned. -/
def GVal.flat : GVal → Bool
  | .bytes _ => false
  | .list _ => false
  | .map _ => false
  | .record _ => false
  | .json _ => false
  | _ => true

/-- What is at `a`, `b` is the same. -/
theorem seen_get {h : GHeap} {a : Nat} : (seen h)[a]? = (h[a]?).map GCell.seen := by simp [seen]

theorem seen_same {h h' : GHeap} {a : Nat} (hs : h'[a]? = h[a]?) : (seen h')[a]? = (seen h)[a]? := by rw [seen_get, seen_get, hs]

section
variable (env : Env) (D : Nat → Prop) (h : GHeap)

/-- The value of a primitive: its own bytes are the objects listed; the objects of a default are in `D`. -/
inductive PrimShows : HVal → GVal → List Nat → Prop
  | atom {g} : g.flat = true → PrimShows (.atom g) g []
  | bytes {x bs} : h[x]? = some (.obj (.bytes bs)) → PrimShows (.ref x) (.bytes bs) [x]
  | json {j v fp} : JsonMadeOf (seen h) j v fp → (∀ x ∈ fp, D x) → PrimShows v (.json j) []

mutual
/-- The datum at `a` stands for the target, and it and its parts are the objects listed. -/
inductive DRep : Nat → GTgt → List Nat → Prop
  | prim {a v g fp} : h[a]? = some (.datum (.prim v)) → PrimShows D h v g fp → DRep a (.prim g) (a :: fp)
  | enum {a ss y} : h[a]? = some (.datum (.enum ss y)) → DRep a (.enum ss y) [a]
  | array {a item as os fp} : h[a]? = some (.datum (.array item as)) → DItems a as os fp → DRep a (.array item os) (a :: fp)
  | map {a item as os fp} : h[a]? = some (.datum (.map item as)) → DEntries a as os fp → DRep a (.map item os) (a :: fp)
  | unionNil {a ts} : h[a]? = some (.datum (.union ts none)) → DRep a (.union ts none) [a]
  | union {a ts b s fp} : h[a]? = some (.datum (.union ts (some b))) → a < b → DRep b s fp → DRep a (.union ts (some s.datum)) (a :: fp)
  | record {a fs as os fp} : h[a]? = some (.datum (.record fs as)) → FieldsOf env fs → DSlots a as os fp → DRep a (.record fs os) (a :: fp)
  | bad {a} : h[a]? = some (.datum .bad) → DRep a .bad [a]
inductive DItems : Nat → List Nat → List (Option GVal) → List Nat → Prop
  | nil {a} : DItems a [] [] []
  | cons {a b s f as os fp} : a < b → DRep b s f → DItems a as os fp → DItems a (b :: as) (s.datum :: os) (f ++ fp)
inductive DEntries : Nat → List (List Byte × Nat) → List (List Byte × Option GVal) → List Nat → Prop
  | nil {a} : DEntries a [] [] []
  | cons {a b k s f as os fp} : a < b → DRep b s f → DEntries a as os fp → DEntries a ((k, b) :: as) ((k, s.datum) :: os) (f ++ fp)
inductive DSlots : Nat → List (Option Nat) → List (Option GVal) → List Nat → Prop
  | nil {a} : DSlots a [] [] []
  | skip {a as os fp} : DSlots a as os fp → DSlots a (none :: as) (none :: os) fp
  | cons {a b s f as os fp} : a < b → DRep b s f → DSlots a as os fp → DSlots a (some b :: as) (s.datum :: os) (f ++ fp)
end
end

section
variable {env : Env} {D : Nat → Prop} {h h' : GHeap}

theorem lt_of_cell {a : Nat} {c : GCell} (ha : h[a]? = some c) : a < h.length := (List.getElem?_eq_some_iff.mp ha).1

theorem datum_of {a : Nat} {d : GDat} (ha : h[a]? = some (.datum d)) : h.datum a = some d := by simp only [GHeap.datum, ha]

theorem DRep.get {a : Nat} {t : GTgt} {fp : List Nat} (hr : DRep env D h a t fp) : ∃ d, h.datum a = some d ∧ h[a]? = some (.datum d) := by
  cases hr <;> exact ⟨_, datum_of (by assumption), by assumption⟩

theorem DRep.lt {a : Nat} {t : GTgt} {fp : List Nat} (hr : DRep env D h a t fp) : a < h.length := by
  obtain ⟨d, -, hd⟩ := hr.get
  exact (List.getElem?_eq_some_iff.mp hd).1

theorem DRep.head {a : Nat} {t : GTgt} {fp : List Nat} (hr : DRep env D h a t fp) : a ∈ fp := by
  cases hr <;> simp

theorem PrimShows.frame {v : HVal} {g : GVal} {fp : List Nat} (hp : PrimShows D h v g fp) (hs : ∀ x ∈ fp, h'[x]? = h[x]?)
    (hD : ∀ x, D x → h'[x]? = h[x]?) : PrimShows D h' v g fp := by
  cases hp with
  | atom hf => exact .atom hf
  | bytes hx => exact .bytes ((hs _ (by simp)).trans hx)
  | json hj hd => exact .json (hj.same fun x hx => seen_same (hD x (hd x hx))) hd

mutual
theorem DRep.frame (hD : ∀ x, D x → h'[x]? = h[x]?) : ∀ {a : Nat} {t : GTgt} {fp : List Nat}, DRep env D h a t fp →
    (∀ x ∈ fp, h'[x]? = h[x]?) → DRep env D h' a t fp
  | _, _, _, .prim h1 h2, hs => .prim ((hs _ (by simp)).trans h1) (h2.frame (fun x hx => hs x (by simp [hx])) hD)
  | _, _, _, .enum h1, hs => .enum ((hs _ (by simp)).trans h1)
  | _, _, _, .array h1 h2, hs => .array ((hs _ (by simp)).trans h1) (h2.frame hD (fun x hx => hs x (by simp [hx])))
  | _, _, _, .map h1 h2, hs => .map ((hs _ (by simp)).trans h1) (h2.frame hD (fun x hx => hs x (by simp [hx])))
  | _, _, _, .unionNil h1, hs => .unionNil ((hs _ (by simp)).trans h1)
  | _, _, _, .union h1 h2 h3, hs => .union ((hs _ (by simp)).trans h1) h2 (h3.frame hD (fun x hx => hs x (by simp [hx])))
  | _, _, _, .record h1 h2 h3, hs => .record ((hs _ (by simp)).trans h1) h2 (h3.frame hD (fun x hx => hs x (by simp [hx])))
  | _, _, _, .bad h1, hs => .bad ((hs _ (by simp)).trans h1)
theorem DItems.frame (hD : ∀ x, D x → h'[x]? = h[x]?) : ∀ {a : Nat} {as os} {fp : List Nat}, DItems env D h a as os fp →
    (∀ x ∈ fp, h'[x]? = h[x]?) → DItems env D h' a as os fp
  | _, _, _, _, .nil, _ => .nil
  | _, _, _, _, .cons h1 h2 h3, hs => .cons h1 (h2.frame hD (fun x hx => hs x (by simp [hx]))) (h3.frame hD (fun x hx => hs x (by simp [hx])))
theorem DEntries.frame (hD : ∀ x, D x → h'[x]? = h[x]?) : ∀ {a : Nat} {as os} {fp : List Nat}, DEntries env D h a as os fp →
    (∀ x ∈ fp, h'[x]? = h[x]?) → DEntries env D h' a as os fp
  | _, _, _, _, .nil, _ => .nil
  | _, _, _, _, .cons h1 h2 h3, hs => .cons h1 (h2.frame hD (fun x hx => hs x (by simp [hx]))) (h3.frame hD (fun x hx => hs x (by simp [hx])))
theorem DSlots.frame (hD : ∀ x, D x → h'[x]? = h[x]?) : ∀ {a : Nat} {as os} {fp : List Nat}, DSlots env D h a as os fp →
    (∀ x ∈ fp, h'[x]? = h[x]?) → DSlots env D h' a as os fp
  | _, _, _, _, .nil, _ => .nil
  | _, _, _, _, .skip h1, hs => .skip (h1.frame hD hs)
  | _, _, _, _, .cons h1 h2 h3, hs => .cons h1 (h2.frame hD (fun x hx => hs x (by simp [hx]))) (h3.frame hD (fun x hx => hs x (by simp [hx])))
end

mutual
theorem drep_lt : ∀ {a : Nat} {t : GTgt} {fp : List Nat}, DRep env D h a t fp → ∀ x ∈ fp, x < h.length
  | _, _, _, .prim h1 h2, x, hx => by
    rcases List.mem_cons.mp hx with rfl | hx
    · exact lt_of_cell h1
    · cases h2 with
      | atom _ => cases hx
      | bytes h3 => rw [List.mem_singleton.mp hx]; exact lt_of_cell h3
      | json _ _ => cases hx
  | _, _, _, .enum h1, x, hx => by rw [List.mem_singleton.mp hx]; exact lt_of_cell h1
  | _, _, _, .array h1 h2, x, hx => (List.mem_cons.mp hx).elim (fun h => h ▸ lt_of_cell h1) (fun h => ditems_lt h2 x h)
  | _, _, _, .map h1 h2, x, hx => (List.mem_cons.mp hx).elim (fun h => h ▸ lt_of_cell h1) (fun h => dentries_lt h2 x h)
  | _, _, _, .unionNil h1, x, hx => by rw [List.mem_singleton.mp hx]; exact lt_of_cell h1
  | _, _, _, .union h1 _ h2, x, hx => (List.mem_cons.mp hx).elim (fun h => h ▸ lt_of_cell h1) (fun h => drep_lt h2 x h)
  | _, _, _, .record h1 _ h2, x, hx => (List.mem_cons.mp hx).elim (fun h => h ▸ lt_of_cell h1) (fun h => dslots_lt h2 x h)
  | _, _, _, .bad h1, x, hx => by rw [List.mem_singleton.mp hx]; exact lt_of_cell h1
theorem ditems_lt : ∀ {a : Nat} {as os} {fp : List Nat}, DItems env D h a as os fp → ∀ x ∈ fp, x < h.length
  | _, _, _, _, .nil, x, hx => (List.not_mem_nil hx).elim
  | _, _, _, _, .cons _ h2 h3, x, hx => (List.mem_append.mp hx).elim (drep_lt h2 x) (ditems_lt h3 x)
theorem dentries_lt : ∀ {a : Nat} {as os} {fp : List Nat}, DEntries env D h a as os fp → ∀ x ∈ fp, x < h.length
  | _, _, _, _, .nil, x, hx => (List.not_mem_nil hx).elim
  | _, _, _, _, .cons _ h2 h3, x, hx => (List.mem_append.mp hx).elim (drep_lt h2 x) (dentries_lt h3 x)
theorem dslots_lt : ∀ {a : Nat} {as os} {fp : List Nat}, DSlots env D h a as os fp → ∀ x ∈ fp, x < h.length
  | _, _, _, _, .nil, x, hx => (List.not_mem_nil hx).elim
  | _, _, _, _, .skip h1, x, hx => dslots_lt h1 x hx
  | _, _, _, _, .cons _ h2 h3, x, hx => (List.mem_append.mp hx).elim (drep_lt h2 x) (dslots_lt h3 x)
end

/-! ### Storing a part -/

theorem DItems.append {a b : Nat} {s : GTgt} {f : List Nat} (hb : a < b) (hr : DRep env D h b s f) : ∀ {as os fp}, DItems env D h a as os fp →
    ∃ fp', DItems env D h a (as ++ [b]) (os ++ [s.datum]) fp' ∧ ∀ x, fp'.count x ≤ fp.count x + f.count x
  | _, _, _, .nil => ⟨f ++ [], .cons hb hr .nil, fun x => by simp⟩
  | _, _, _, .cons (f := f1) (fp := fp1) h1 h2 h3 => by
    obtain ⟨fp', h4, h5⟩ := h3.append hb hr
    exact ⟨_, .cons h1 h2 h4, fun x => by simp only [List.count_append]; have := h5 x; omega⟩

theorem DEntries.insert {a b : Nat} {s : GTgt} {f : List Nat} {k : List Byte} (hb : a < b) (hr : DRep env D h b s f) : ∀ {as os fp}, DEntries env D h a as os fp →
    ∃ fp', DEntries env D h a (mapInsert k b as) (mapInsert k s.datum os) fp' ∧ ∀ x, fp'.count x ≤ fp.count x + f.count x
  | _, _, _, .nil => ⟨f ++ [], .cons hb hr .nil, fun x => by simp⟩
  | _, _, _, .cons (k := k') (f := f1) (fp := fp1) h1 h2 h3 => by
    simp only [mapInsert]
    by_cases hk : k = k'
    · rw [if_pos hk, if_pos hk]
      exact ⟨_, .cons hb hr h3, fun x => by simp only [List.count_append]; omega⟩
    · rw [if_neg hk, if_neg hk]
      by_cases hl : keyLt k k' = true
      · rw [if_pos hl, if_pos hl]
        exact ⟨_, .cons hb hr (.cons h1 h2 h3), fun x => by simp only [List.count_append]; omega⟩
      · rw [if_neg hl, if_neg hl]
        obtain ⟨fp', h4, h5⟩ := h3.insert (k := k) hb hr
        exact ⟨_, .cons h1 h2 h4, fun x => by simp only [List.count_append]; have := h5 x; omega⟩

theorem DSlots.length {a : Nat} : ∀ {as os fp}, DSlots env D h a as os fp → as.length = os.length
  | _, _, _, .nil => rfl
  | _, _, _, .skip h1 => by simp [h1.length]
  | _, _, _, .cons _ _ h1 => by simp [h1.length]

theorem DItems.length {a : Nat} : ∀ {as os fp}, DItems env D h a as os fp → as.length = os.length
  | _, _, _, .nil => rfl
  | _, _, _, .cons _ _ h1 => by simp [h1.length]

theorem DSlots.set {a b : Nat} {s : GTgt} {f : List Nat} (hb : a < b) (hr : DRep env D h b s f) : ∀ {as os fp}, DSlots env D h a as os fp →
    ∀ i, ∃ fp', DSlots env D h a (as.set i (some b)) (os.set i s.datum) fp' ∧ ∀ x, fp'.count x ≤ fp.count x + f.count x
  | _, _, _, .nil, i => ⟨[], .nil, fun x => by simp⟩
  | _, _, _, .skip h1, 0 => ⟨_, .cons hb hr h1, fun x => by simp only [List.count_append]; omega⟩
  | _, _, _, .skip h1, i + 1 => by
    obtain ⟨fp', h4, h5⟩ := h1.set hb hr i
    exact ⟨_, .skip h4, h5⟩
  | _, _, _, .cons (f := f1) (fp := fp1) h1 h2 h3, 0 => ⟨_, .cons hb hr h3, fun x => by simp only [List.count_append]; omega⟩
  | _, _, _, .cons (f := f1) (fp := fp1) h1 h2 h3, i + 1 => by
    obtain ⟨fp', h4, h5⟩ := h3.set hb hr i
    exact ⟨_, .cons h1 h2 h4, fun x => by simp only [List.count_append]; have := h5 x; omega⟩

theorem dslots_none {a : Nat} : ∀ n, DSlots env D h a (List.replicate n none) (List.replicate n none) []
  | 0 => .nil
  | n + 1 => .skip (dslots_none n)

/-- A new datum stands for a new target. -/
theorem drep_new {a : Nat} {t : Ty} (ha : h[a]? = some (.datum (.new env t))) : DRep env D h a (.new env t) [a] := by
  have hp : h[a]? = some (.datum (.prim (.atom .nil))) → DRep env D h a (.prim .nil) [a] := fun h1 => .prim h1 (.atom rfl)
  cases t with
  | array t => exact .array ha .nil
  | map t => exact .map ha .nil
  | union ts => exact .unionNil ha
  | ref q =>
    simp only [GDat.new] at ha
    simp only [GTgt.new]
    cases hf : env.find q with
    | none => rw [hf] at ha; exact .bad ha
    | some d =>
      rw [hf] at ha
      simp only at ha ⊢
      cases hk : d.kind with
      | record fs => rw [hk] at ha; exact .record ha ⟨q, d, hf, hk⟩ (dslots_none _)
      | enum ss dd => rw [hk] at ha; exact .enum ha
      | fixed n => rw [hk] at ha; exact hp ha
  | _ => exact hp ha

/-! ### The methods -/

/-- The call has made what the target is made of: each object is used once, and none is in `D`. -/
structure DOwn (env : Env) (D : Nat → Prop) (h : GHeap) (a : Nat) (t : GTgt) (fp : List Nat) : Prop where
  rep : DRep env D h a t fp
  once : ∀ x, fp.count x ≤ 1
  lt : ∀ x ∈ fp, x < h.length
  apart : ∀ x, D x → x ∉ fp

/-- A method of a datum does what that of the target does: it changes only the datum, and what is new is used once. -/
def FollowsG (env : Env) (D : Nat → Prop) (h : GHeap) (a : Nat) (fp : List Nat) (A : Except Err GTgt) (B : Except Err GState) : Prop :=
  match A, B with
  | .error e, .error e' => e = e'
  | .ok t, .ok s => s.1 = a ∧ h.length ≤ s.2.length ∧ (∀ x, x < h.length → x ≠ a → s.2[x]? = h[x]?) ∧
      ((∀ x, D x → s.2[x]? = h[x]?) → ∃ fp', DRep env D s.2 a t fp' ∧ ∀ x, fp'.count x ≤ if x < h.length then fp.count x else 1)
  | _, _ => False

/-- A method of a datum returns the new target that the method of the target returns; it changes only the datum. When the new target
has been filled, and nothing else of what the datum is made of has changed, the datum stands for what `put` says. -/
def SubSimG (env : Env) (D : Nat → Prop) (h : GHeap) (a : Nat) (fp : List Nat) (put : GTgt → GTgt) (A : Except Err GTgt) (B : Except Err GState) : Prop :=
  match A, B with
  | .error e, .error e' => e = e'
  | .ok t, .ok s => s.1 = h.length ∧ s.2.length = h.length + 1 ∧ (∀ x, x < h.length → x ≠ a → s.2[x]? = h[x]?) ∧
      DRep env D s.2 h.length t [h.length] ∧
      ∀ h2 t2 f2, h2[a]? = s.2[a]? → (∀ x ∈ fp, x ≠ a → h2[x]? = h[x]?) → (∀ x, D x → h2[x]? = h[x]?) → DRep env D h2 h.length t2 f2 →
        ∃ fp', DRep env D h2 a (put t2) fp' ∧ ∀ x, fp'.count x ≤ fp.count x + f2.count x
  | _, _ => False

variable {a : Nat} {t : GTgt} {fp : List Nat}

theorem follows_self (ho : DOwn env D h a t fp) : FollowsG env D h a fp (.ok t) (.ok (a, h)) :=
  ⟨rfl, Nat.le_refl _, fun _ _ _ => rfl, fun _ => ⟨fp, ho.rep, fun x => by
    by_cases hx : x < h.length
    · rw [if_pos hx]; exact Nat.le_refl _
    · rw [if_neg hx]; exact ho.once x⟩⟩

theorem get_self {c : GCell} (ha : a < h.length) : (h.set a c)[a]? = some c := by simp [ha]
theorem get_other {c : GCell} {x : Nat} (hx : x ≠ a) : (h.set a c)[x]? = h[x]? := by simp [List.getElem?_set, Ne.symm hx]
theorem get_old {c : GCell} {x : Nat} (hx : x < h.length) : (h ++ [c])[x]? = h[x]? := List.getElem?_append_left hx

theorem count_self {l : List Nat} (hl : a ∈ l) (x : Nat) : [a].count x ≤ if x < h.length then l.count x else 1 := by
  by_cases hx : x = a
  · subst hx
    have := List.count_pos_iff.mpr hl
    simp only [List.count_singleton_self]
    split <;> omega
  · simp [List.count_singleton, Ne.symm hx]

theorem set_simG (ho : DOwn env D h a t fp) {v : GVal} (hv : v.flat = true) : FollowsG env D h a fp (gSet t v) (pSet (a, h) v) := by
  have hr := ho.rep
  have hl := hr.lt
  cases hr with
  | prim h1 h2 =>
    have hd := datum_of h1
    simp only [gSet, pSet, hd, GState.store]
    refine ⟨rfl, by simp, fun x _ hx => get_other hx, fun _ => ⟨[a], .prim (get_self hl) (.atom hv), fun x => ?_⟩⟩
    exact count_self ho.rep.head x
  | array h1 h2 =>
    have hd := datum_of h1
    simp only [gSet, pSet, hd]
    exact follows_self ho
  | map h1 h2 =>
    have hd := datum_of h1
    simp only [gSet, pSet, hd]
    exact follows_self ho
  | enum h1 =>
    have hd := datum_of h1
    simp only [gSet, pSet, hd]; exact rfl
  | unionNil h1 =>
    have hd := datum_of h1
    simp only [gSet, pSet, hd]; exact rfl
  | union h1 _ _ =>
    have hd := datum_of h1
    simp only [gSet, pSet, hd]; exact rfl
  | record h1 _ _ =>
    have hd := datum_of h1
    simp only [gSet, pSet, hd]; exact rfl
  | bad h1 =>
    have hd := datum_of h1
    simp only [gSet, pSet, hd]; exact rfl

theorem setBytes_simG (ho : DOwn env D h a t fp) (bs : List Byte) : FollowsG env D h a fp (gSet t (.bytes bs)) (pSetBytes (a, h) bs) := by
  have hr := ho.rep
  have hl := hr.lt
  cases hr with
  | prim h1 h2 =>
    have hd := datum_of h1
    simp only [gSet, pSetBytes, hd]
    refine ⟨rfl, by simp, fun x hx hxa => (get_other hxa).trans (get_old hx), fun _ => ⟨[a, h.length], .prim (get_self (by simp; omega)) (.bytes ?_), fun x => ?_⟩⟩
    · rw [get_other (by omega)]; simp
    · have h3 := count_self (h := h) ho.rep.head x
      rw [List.count_cons]
      by_cases hx : x < h.length
      · rw [if_pos hx] at h3 ⊢
        have : (h.length == x) = false := by simp; omega
        simp only [List.count_singleton, this] at h3 ⊢
        simp at h3 ⊢
        omega
      · rw [if_neg hx] at h3 ⊢
        have : (a == x) = false := by simp; omega
        rw [this]
        simp only [List.count_singleton]
        split <;> simp
  | array h1 h2 =>
    have hd := datum_of h1
    simp only [gSet, pSetBytes, hd]
    exact follows_self ho
  | map h1 h2 =>
    have hd := datum_of h1
    simp only [gSet, pSetBytes, hd]
    exact follows_self ho
  | enum h1 =>
    have hd := datum_of h1
    simp only [gSet, pSetBytes, hd]; exact rfl
  | unionNil h1 =>
    have hd := datum_of h1
    simp only [gSet, pSetBytes, hd]; exact rfl
  | union h1 _ _ =>
    have hd := datum_of h1
    simp only [gSet, pSetBytes, hd]; exact rfl
  | record h1 _ _ =>
    have hd := datum_of h1
    simp only [gSet, pSetBytes, hd]; exact rfl
  | bad h1 =>
    have hd := datum_of h1
    simp only [gSet, pSetBytes, hd]; exact rfl

theorem setInt_simG (ho : DOwn env D h a t fp) (v : BitVec 32) : FollowsG env D h a fp (gSetInt t v) (pSetInt (a, h) v) := by
  have hs := set_simG ho (v := .int v) rfl
  have hr := ho.rep
  have hl := hr.lt
  cases hr with
  | @enum _ ss y h1 =>
    have hd := datum_of h1
    simp only [gSetInt, pSetInt, hd, GState.store]
    by_cases hv : v.toInt < 0
    · rw [if_pos hv, if_pos hv]; exact rfl
    · rw [if_neg hv, if_neg hv]
      cases hy : ss[v.toInt.toNat]? with
      | none => exact rfl
      | some y' => exact ⟨rfl, by simp, fun x _ hx => get_other hx, fun _ => ⟨[a], .enum (get_self hl), count_self ho.rep.head⟩⟩
  | prim h1 _ =>
    have hd := datum_of h1
    simp only [gSetInt, pSetInt, hd]; exact hs
  | array h1 _ =>
    have hd := datum_of h1
    simp only [gSetInt, pSetInt, hd]; exact hs
  | map h1 _ =>
    have hd := datum_of h1
    simp only [gSetInt, pSetInt, hd]; exact hs
  | unionNil h1 =>
    have hd := datum_of h1
    simp only [gSetInt, pSetInt, hd]; exact hs
  | union h1 _ _ =>
    have hd := datum_of h1
    simp only [gSetInt, pSetInt, hd]; exact hs
  | record h1 _ _ =>
    have hd := datum_of h1
    simp only [gSetInt, pSetInt, hd]; exact hs
  | bad h1 =>
    have hd := datum_of h1
    simp only [gSetInt, pSetInt, hd]; exact hs

theorem setLong_simG (ho : DOwn env D h a t fp) (v : BitVec 64) : FollowsG env D h a fp (gSetLong t v) (pSetLong (a, h) v) := by
  have hs := set_simG ho (v := .long v) rfl
  have hr := ho.rep
  have hl := hr.lt
  cases hr with
  | @enum _ ss y h1 =>
    have hd := datum_of h1
    simp only [gSetLong, pSetLong, hd]; exact hs
  | prim h1 _ =>
    have hd := datum_of h1
    simp only [gSetLong, pSetLong, hd]; exact hs
  | array h1 _ =>
    have hd := datum_of h1
    simp only [gSetLong, pSetLong, hd]; exact hs
  | map h1 _ =>
    have hd := datum_of h1
    simp only [gSetLong, pSetLong, hd]; exact hs
  | unionNil h1 =>
    have hd := datum_of h1
    simp only [gSetLong, pSetLong, hd]; exact follows_self ho
  | union h1 _ _ =>
    have hd := datum_of h1
    simp only [gSetLong, pSetLong, hd]; exact follows_self ho
  | record h1 _ _ =>
    have hd := datum_of h1
    simp only [gSetLong, pSetLong, hd]; exact hs
  | bad h1 =>
    have hd := datum_of h1
    simp only [gSetLong, pSetLong, hd]; exact hs

theorem doSet_simG {re : Env} {lim : Nat} {dflt : Field → HVal} (ho : DOwn env D h a t fp) (arg : Int) (fr : Frame) :
    FollowsG env D h a fp (doSet (gOps re lim) arg fr t) (doSet (placeOps re lim dflt) arg fr (a, h)) := by
  unfold doSet
  by_cases h1 : arg = opNull
  · rw [if_pos h1, if_pos h1]; exact follows_self ho
  rw [if_neg h1, if_neg h1]
  by_cases h1 : arg = opBoolean
  · rw [if_pos h1, if_pos h1]; exact set_simG ho rfl
  rw [if_neg h1, if_neg h1]
  by_cases h1 : arg = opInt
  · rw [if_pos h1, if_pos h1]; exact setInt_simG ho _
  rw [if_neg h1, if_neg h1]
  by_cases h1 : arg = opLong
  · rw [if_pos h1, if_pos h1]; exact setLong_simG ho _
  rw [if_neg h1, if_neg h1]
  by_cases h1 : arg = opFloat
  · rw [if_pos h1, if_pos h1]; exact set_simG ho rfl
  rw [if_neg h1, if_neg h1]
  by_cases h1 : arg = opDouble
  · rw [if_pos h1, if_pos h1]; exact set_simG ho rfl
  rw [if_neg h1, if_neg h1]
  by_cases h1 : arg = opBytes
  · rw [if_pos h1, if_pos h1]; exact setBytes_simG ho _
  rw [if_neg h1, if_neg h1]
  by_cases h1 : arg = opString
  · rw [if_pos h1, if_pos h1]; exact set_simG ho rfl
  rw [if_neg h1, if_neg h1]
  exact follows_self ho

theorem hintSize_simG (ho : DOwn env D h a t fp) (lim : Nat) (c : BitVec 64) : FollowsG env D h a fp (gHintSize lim t c) (pHintSize lim (a, h) c) := by
  have hr := ho.rep
  have hl := hr.lt
  cases hr with
  | @array _ _ as os _ h1 h2 =>
    have hd := datum_of h1
    have he : as = [] ↔ os = [] := by
      have := h2.length
      constructor
      · intro h; subst h; exact List.eq_nil_of_length_eq_zero this.symm
      · intro h; subst h; exact List.eq_nil_of_length_eq_zero this
    simp only [gHintSize, pHintSize, hd, he]
    split
    · exact rfl
    · exact follows_self ho
  | map h1 h2 =>
    have hd := datum_of h1
    simp only [gHintSize, pHintSize, hd]
    exact follows_self ho
  | prim h1 _ =>
    have hd := datum_of h1
    simp only [gHintSize, pHintSize, hd]; exact rfl
  | enum h1 =>
    have hd := datum_of h1
    simp only [gHintSize, pHintSize, hd]; exact rfl
  | unionNil h1 =>
    have hd := datum_of h1
    simp only [gHintSize, pHintSize, hd]; exact rfl
  | union h1 _ _ =>
    have hd := datum_of h1
    simp only [gHintSize, pHintSize, hd]; exact rfl
  | record h1 _ _ =>
    have hd := datum_of h1
    simp only [gHintSize, pHintSize, hd]; exact rfl
  | bad h1 =>
    have hd := datum_of h1
    simp only [gHintSize, pHintSize, hd]; exact rfl

theorem make_old {c d : GDat} {x : Nat} (hx : x < h.length) (hxa : x ≠ a) : (GState.make (a, h) c d)[x]? = h[x]? :=
  (get_other hxa).trans (get_old hx)

theorem make_self {c d : GDat} (ha : a < h.length) : (GState.make (a, h) c d)[a]? = some (.datum d) :=
  get_self (by simp; omega)

theorem make_new {c d : GDat} (ha : a < h.length) : (GState.make (a, h) c d)[h.length]? = some (.datum c) := by
  simp only [GState.make]
  rw [get_other (by omega)]
  simp

theorem make_length {c d : GDat} : (GState.make (a, h) c d).length = h.length + 1 := by simp [GState.make]

/-- Own parts of a datum, when the datum has changed. -/
theorem tail_same {a : Nat} {fp : List Nat} {h2 : GHeap} (h1 : ∀ x, (a :: fp).count x ≤ 1) (hs : ∀ x ∈ a :: fp, x ≠ a → h2[x]? = h[x]?) : ∀ x ∈ fp, h2[x]? = h[x]? := by
  intro x hx
  refine hs x (by simp [hx]) (fun he => ?_)
  subst he
  have h2 := h1 x
  have h3 := List.count_pos_iff.mpr hx
  rw [List.count_cons_self] at h2
  omega

theorem count_wrap {fp fp' f2 : List Nat} (hc : ∀ x, fp'.count x ≤ fp.count x + f2.count x) (x : Nat) : (a :: fp').count x ≤ (a :: fp).count x + f2.count x := by
  simp only [List.count_cons]
  have := hc x
  omega

/-- A field of a record, replaced by a datum that stands for `t2`. -/
theorem record_close {fs : List Field} {as : List (Option Nat)} {os : List (Option GVal)} {fp f2 : List Nat} {b i : Nat} {h2 : GHeap} {t2 : GTgt}
    (ho : DOwn env D h a (.record fs os) (a :: fp)) (hf : FieldsOf env fs) (hs : DSlots env D h a as os fp) (hb : a < b)
    (h1 : h2[a]? = some (.datum (.record fs (as.set i (some b))))) (hsame : ∀ x ∈ a :: fp, x ≠ a → h2[x]? = h[x]?)
    (hD : ∀ x, D x → h2[x]? = h[x]?) (hr : DRep env D h2 b t2 f2) :
    ∃ fp', DRep env D h2 a (.record fs (os.set i t2.datum)) fp' ∧ ∀ x, fp'.count x ≤ (a :: fp).count x + f2.count x := by
  obtain ⟨fp', h3, h4⟩ := (hs.frame hD (tail_same ho.once hsame)).set hb hr i
  exact ⟨_, .record h1 hf h3, count_wrap h4⟩

/-- A field of a record is set to a new primitive. -/
theorem recordPrim_simG {fs : List Field} {as : List (Option Nat)} {os : List (Option GVal)} {fp : List Nat} {i : Nat} {v : HVal} {g : GVal}
    (ho : DOwn env D h a (.record fs os) (a :: fp)) (hf : FieldsOf env fs) (hs : DSlots env D h a as os fp)
    (hp : ∀ h2 : GHeap, (∀ x, D x → h2[x]? = h[x]?) → PrimShows D h2 v g []) :
    FollowsG env D h a (a :: fp) (.ok (.record fs (os.set i (some g))))
      (.ok (a, GState.make (a, h) (.prim v) (.record fs (as.set i (some h.length))))) := by
  have hl := ho.rep.lt
  refine ⟨rfl, by simp [GState.make], fun x hx hxa => make_old hx hxa, fun hD => ?_⟩
  obtain ⟨fp', h3, h4⟩ := record_close (t2 := .prim g) (i := i) (f2 := [h.length]) ho hf hs hl (make_self hl) (fun x hx hxa => make_old (ho.lt x hx) hxa) hD (.prim (make_new hl) (hp _ hD))
  refine ⟨fp', h3, fun x => ?_⟩
  have h5 := h4 x
  have h6 := ho.once x
  by_cases hx : x < h.length
  · rw [if_pos hx]
    have : [h.length].count x = 0 := by
      rw [List.count_eq_zero]; simp; omega
    omega
  · rw [if_neg hx]
    have h7 : (a :: fp).count x = 0 := List.count_eq_zero.mpr fun hm => hx (ho.lt x hm)
    have : [h.length].count x ≤ 1 := by simp only [List.count_singleton]; split <;> simp
    omega

theorem DefaultsAt.frame {dflt : Field → HVal} (hd : DefaultsAt env D h dflt) (hD : ∀ x, D x → h'[x]? = h[x]?) : DefaultsAt env D h' dflt := by
  intro fs hf f hm j hj
  obtain ⟨fp, h1, h2⟩ := hd fs hf f hm j hj
  exact ⟨fp, h1.same fun x hx => seen_same (hD x (h2 x hx)), h2⟩

theorem setDefault_simG {dflt : Field → HVal} (hd : DefaultsAt env D h dflt) (ho : DOwn env D h a t fp) (i : Int) :
    FollowsG env D h a fp (gSetDefault t i) (pSetDefault dflt (a, h) i) := by
  have hr := ho.rep
  have hl := hr.lt
  cases hr with
  | @record _ fs as os fp h1 hf hs =>
    have hdt := datum_of h1
    simp only [gSetDefault, pSetDefault, hdt]
    by_cases hi : i < 0
    · rw [if_pos hi, if_pos hi]; exact rfl
    · rw [if_neg hi, if_neg hi]
      cases hfi : fs[i.toNat]? with
      | none => exact rfl
      | some f =>
        refine recordPrim_simG ho hf hs fun h2 hD => ?_
        cases hj : f.dflt with
        | none => exact .atom rfl
        | some j =>
          obtain ⟨jf, h3, h4⟩ := hd.frame hD fs hf f (List.mem_of_getElem? hfi) j hj
          exact .json h3 h4
  | prim h1 _ =>
    have hd := datum_of h1
    simp only [gSetDefault, pSetDefault, hd]; exact follows_self ho
  | array h1 _ =>
    have hd := datum_of h1
    simp only [gSetDefault, pSetDefault, hd]; exact follows_self ho
  | map h1 _ =>
    have hd := datum_of h1
    simp only [gSetDefault, pSetDefault, hd]; exact follows_self ho
  | enum h1 =>
    have hd := datum_of h1
    simp only [gSetDefault, pSetDefault, hd]; exact follows_self ho
  | unionNil h1 =>
    have hd := datum_of h1
    simp only [gSetDefault, pSetDefault, hd]; exact follows_self ho
  | union h1 _ _ =>
    have hd := datum_of h1
    simp only [gSetDefault, pSetDefault, hd]; exact follows_self ho
  | bad h1 =>
    have hd := datum_of h1
    simp only [gSetDefault, pSetDefault, hd]; exact follows_self ho

theorem nullField_simG (ho : DOwn env D h a t fp) (i : Int) : FollowsG env D h a fp (gNullField t i) (pNullField (a, h) i) := by
  have hr := ho.rep
  have hl := hr.lt
  cases hr with
  | @record _ fs as os fp h1 hf hs =>
    have hdt := datum_of h1
    simp only [gNullField, pNullField, hdt, hs.length]
    by_cases hi : i < 0 ∨ os.length ≤ i.toNat
    · rw [if_pos hi, if_pos hi]; exact rfl
    · rw [if_neg hi, if_neg hi]
      exact recordPrim_simG ho hf hs fun h2 hD => .atom rfl
  | prim h1 _ =>
    have hd := datum_of h1
    simp only [gNullField, pNullField, hd]; exact follows_self ho
  | array h1 _ =>
    have hd := datum_of h1
    simp only [gNullField, pNullField, hd]; exact follows_self ho
  | map h1 _ =>
    have hd := datum_of h1
    simp only [gNullField, pNullField, hd]; exact follows_self ho
  | enum h1 =>
    have hd := datum_of h1
    simp only [gNullField, pNullField, hd]; exact rfl
  | unionNil h1 =>
    have hd := datum_of h1
    simp only [gNullField, pNullField, hd]; exact rfl
  | union h1 _ _ =>
    have hd := datum_of h1
    simp only [gNullField, pNullField, hd]; exact rfl
  | bad h1 =>
    have hd := datum_of h1
    simp only [gNullField, pNullField, hd]; exact rfl

theorem get_simG (hl : a < h.length) (ho : DOwn env D h a t fp) (i : Int) : SubSimG env D h a fp (fun s => gPut t i s) (gGet env t i) (pGet env (a, h) i) := by
  have hr := ho.rep
  have hun : ∀ (ts : List Ty) (d : Option Nat), h.datum a = some (.union ts d) → ∀ t' fp', DOwn env D h a t' (a :: fp') → (∀ i s, gPut t' i s = .union ts (some s.datum)) →
      (gGet env t' i = if i < 0 then .error .panic else
        match ts[i.toNat]? with
        | none => .error .panic
        | some ty => .ok (.new env ty)) → SubSimG env D h a (a :: fp') (fun s => gPut t' i s) (gGet env t' i) (pGet env (a, h) i) := by
    intro ts d hdt t' fp' ho' hput hget
    rw [hget]
    simp only [pGet, hdt]
    by_cases hi : i < 0
    · rw [if_pos hi, if_pos hi]; exact rfl
    · rw [if_neg hi, if_neg hi]
      cases hfi : ts[i.toNat]? with
      | none => exact rfl
      | some ty =>
        refine ⟨rfl, make_length, fun x hx hxa => make_old hx hxa, drep_new (make_new hl), fun h2 t2 f2 e1 e2 e3 e4 => ?_⟩
        show ∃ fp'', DRep env D h2 a (gPut t' i t2) fp'' ∧ _
        rw [hput]
        exact ⟨_, .union (e1.trans (make_self hl)) hl e4, fun x => by simp only [List.count_cons]; omega⟩
  cases hr with
  | @record _ fs as os fp h1 hf hs =>
    have hdt := datum_of h1
    simp only [gGet, pGet, hdt]
    by_cases hi : i < 0
    · rw [if_pos hi, if_pos hi]; exact rfl
    · rw [if_neg hi, if_neg hi]
      cases hfi : fs[i.toNat]? with
      | none => exact rfl
      | some f =>
        refine ⟨rfl, make_length, fun x hx hxa => make_old hx hxa, drep_new (make_new hl), fun h2 t2 f2 e1 e2 e3 e4 => ?_⟩
        exact record_close ho hf hs hl (e1.trans (make_self hl)) e2 e3 e4
  | unionNil h1 =>
    have hd := datum_of h1
    exact hun _ _ hd _ _ ho (fun _ _ => rfl) rfl
  | union h1 _ _ =>
    have hd := datum_of h1
    exact hun _ _ hd _ _ ho (fun _ _ => rfl) rfl
  | prim h1 _ =>
    have hd := datum_of h1
    simp only [gGet, pGet, hd]; exact rfl
  | array h1 _ =>
    have hd := datum_of h1
    simp only [gGet, pGet, hd]; exact rfl
  | map h1 _ =>
    have hd := datum_of h1
    simp only [gGet, pGet, hd]; exact rfl
  | enum h1 =>
    have hd := datum_of h1
    simp only [gGet, pGet, hd]; exact rfl
  | bad h1 =>
    have hd := datum_of h1
    simp only [gGet, pGet, hd]; exact rfl

theorem appendArray_simG (ho : DOwn env D h a t fp) : SubSimG env D h a fp (fun s => gPutArray t s) (gAppendArray env t) (pAppendArray env (a, h)) := by
  have hr := ho.rep
  have hl := hr.lt
  cases hr with
  | @array _ item as os fp h1 hs =>
    have hdt := datum_of h1
    simp only [gAppendArray, pAppendArray, hdt]
    refine ⟨rfl, make_length, fun x hx hxa => make_old hx hxa, drep_new (make_new hl), fun h2 t2 f2 e1 e2 e3 e4 => ?_⟩
    obtain ⟨fp', h3, h4⟩ := (hs.frame e3 (tail_same ho.once e2)).append hl e4
    exact ⟨_, .array (e1.trans (make_self hl)) h3, count_wrap h4⟩
  | prim h1 _ =>
    have hd := datum_of h1
    simp only [gAppendArray, pAppendArray, hd]; exact rfl
  | map h1 _ =>
    have hd := datum_of h1
    simp only [gAppendArray, pAppendArray, hd]; exact rfl
  | enum h1 =>
    have hd := datum_of h1
    simp only [gAppendArray, pAppendArray, hd]; exact rfl
  | unionNil h1 =>
    have hd := datum_of h1
    simp only [gAppendArray, pAppendArray, hd]; exact rfl
  | union h1 _ _ =>
    have hd := datum_of h1
    simp only [gAppendArray, pAppendArray, hd]; exact rfl
  | record h1 _ _ =>
    have hd := datum_of h1
    simp only [gAppendArray, pAppendArray, hd]; exact rfl
  | bad h1 =>
    have hd := datum_of h1
    simp only [gAppendArray, pAppendArray, hd]; exact rfl

theorem appendMap_simG (ho : DOwn env D h a t fp) (k : List Byte) : SubSimG env D h a fp (fun s => gPutMap t k s) (gAppendMap env t k) (pAppendMap env (a, h) k) := by
  have hr := ho.rep
  have hl := hr.lt
  cases hr with
  | @map _ item as os fp h1 hs =>
    have hdt := datum_of h1
    simp only [gAppendMap, pAppendMap, hdt]
    refine ⟨rfl, make_length, fun x hx hxa => make_old hx hxa, drep_new (make_new hl), fun h2 t2 f2 e1 e2 e3 e4 => ?_⟩
    obtain ⟨fp', h3, h4⟩ := (hs.frame e3 (tail_same ho.once e2)).insert (k := k) hl e4
    exact ⟨_, .map (e1.trans (make_self hl)) h3, count_wrap h4⟩
  | prim h1 _ =>
    have hd := datum_of h1
    simp only [gAppendMap, pAppendMap, hd]; exact rfl
  | array h1 _ =>
    have hd := datum_of h1
    simp only [gAppendMap, pAppendMap, hd]; exact rfl
  | enum h1 =>
    have hd := datum_of h1
    simp only [gAppendMap, pAppendMap, hd]; exact rfl
  | unionNil h1 =>
    have hd := datum_of h1
    simp only [gAppendMap, pAppendMap, hd]; exact rfl
  | union h1 _ _ =>
    have hd := datum_of h1
    simp only [gAppendMap, pAppendMap, hd]; exact rfl
  | record h1 _ _ =>
    have hd := datum_of h1
    simp only [gAppendMap, pAppendMap, hd]; exact rfl
  | bad h1 =>
    have hd := datum_of h1
    simp only [gAppendMap, pAppendMap, hd]; exact rfl
end
end Verif
