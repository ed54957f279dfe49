import Verif.Go.Literal
import Verif.Go.FloatProof
/-
Constants are rounded to the nearest float, and there is one such float.
-/
namespace Verif
set_option linter.unusedSimpArgs false
set_option linter.unusedVariables false
open Fmt

theorem mag_lt_succ (F : Fmt) (n : Nat) : F.mag n < F.mag (n + 1) := by
  have hp : 0 < 2 ^ F.p := Nat.two_pow_pos _
  have hm : n % 2 ^ F.p < 2 ^ F.p := Nat.mod_lt _ hp
  have hn : n = n / 2 ^ F.p * 2 ^ F.p + n % 2 ^ F.p := by rw [Nat.mul_comm]; exact (Nat.div_add_mod _ _).symm
  generalize n / 2 ^ F.p = E at *
  generalize n % 2 ^ F.p = f at *
  subst hn
  have d0 : (E * 2 ^ F.p + f) / 2 ^ F.p = E := by
    rw [Nat.add_comm, Nat.add_mul_div_right _ _ hp, Nat.div_eq_of_lt hm, Nat.zero_add]
  have m0 : (E * 2 ^ F.p + f) % 2 ^ F.p = f := by
    rw [Nat.add_comm, Nat.add_mul_mod_self_right, Nat.mod_eq_of_lt hm]
  by_cases hf : f + 1 < 2 ^ F.p
  · have d1 : (E * 2 ^ F.p + f + 1) / 2 ^ F.p = E := by
      rw [Nat.add_assoc, Nat.add_comm, Nat.add_mul_div_right _ _ hp, Nat.div_eq_of_lt hf, Nat.zero_add]
    have m1 : (E * 2 ^ F.p + f + 1) % 2 ^ F.p = f + 1 := by
      rw [Nat.add_assoc, Nat.add_comm, Nat.add_mul_mod_self_right, Nat.mod_eq_of_lt hf]
    unfold mag
    rw [d0, m0, d1, m1]
    split
    · omega
    · exact Nat.mul_lt_mul_of_pos_right (by omega) (Nat.two_pow_pos _)
  · have e : E * 2 ^ F.p + f + 1 = (E + 1) * 2 ^ F.p := by rw [Nat.add_mul]; omega
    unfold mag
    rw [d0, m0, e, Nat.mul_div_cancel _ hp, Nat.mul_mod_left, if_neg (Nat.succ_ne_zero E)]
    simp only [Nat.add_zero, Nat.add_sub_cancel]
    split
    · rename_i h; subst h; simp; omega
    · rename_i h
      obtain ⟨E', rfl⟩ : ∃ E', E = E' + 1 := ⟨E - 1, by omega⟩
      rw [Nat.add_sub_cancel, Nat.pow_succ', ← Nat.mul_assoc]
      exact Nat.mul_lt_mul_of_pos_right (by omega) (Nat.two_pow_pos _)

theorem mag_strict (F : Fmt) {n m : Nat} (h : n < m) : F.mag n < F.mag m := by
  induction m with
  | zero => omega
  | succ m ih =>
    have := mag_lt_succ F m
    by_cases e : n = m
    · subst e; exact this
    · exact Nat.lt_trans (ih (by omega)) this

theorem mag_le (F : Fmt) {n m : Nat} (h : n ≤ m) : F.mag n ≤ F.mag m := by
  by_cases e : n = m
  · subst e; exact Nat.le_refl _
  · exact Nat.le_of_lt (mag_strict F (by omega))

theorem mag_zero (F : Fmt) : F.mag 0 = 0 := by simp [mag]

theorem mag_pos (F : Fmt) {n : Nat} (h : n ≠ 0) : 0 < F.mag n := by
  have := mag_strict F (n := 0) (m := n) (by omega)
  rwa [mag_zero] at this

/-- The bits for `q` units of `2 ^ s`. -/
theorem mag_units (F : Fmt) {s q : Nat} (h : s = 0 ∨ 2 ^ F.p ≤ q) (hq : q ≤ 2 ^ (F.p + 1)) :
    F.mag (s * 2 ^ F.p + q) = q * 2 ^ s := by
  by_cases h1 : 2 ^ F.p ≤ q
  · have := mag_of F (E := s + 1) (q := q) (by omega) h1 hq
    rwa [show (s + 1) * 2 ^ F.p + (q - 2 ^ F.p) = s * 2 ^ F.p + q by rw [Nat.add_mul]; omega,
      Nat.add_sub_cancel] at this
  · rcases h with rfl | h
    · unfold mag
      rw [if_pos (by rw [Nat.zero_mul, Nat.zero_add]; exact Nat.div_eq_of_lt (by omega)), Nat.zero_mul, Nat.zero_add,
        Nat.mod_eq_of_lt (by omega)]
      simp
    · omega

/-- Where `roundTo` rounds: between two neighbours, to the nearer, on a tie to the even one. -/
theorem roundTo_spec (F : Fmt) (hp : 1 ≤ F.p) (a : Nat) {d : Nat} (hd : 0 < d) :
    ∃ t, F.mag t * d ≤ a * 2 ^ F.scale ∧ a * 2 ^ F.scale < F.mag (t + 1) * d ∧
      roundTo F a d = if F.mag (t + 1) * d + F.mag t * d < 2 * (a * 2 ^ F.scale) ∨
        (2 * (a * 2 ^ F.scale) = F.mag (t + 1) * d + F.mag t * d ∧ t % 2 = 1) then t + 1 else t := by
  unfold roundTo
  dsimp only
  generalize a * 2 ^ F.scale = x
  generalize hs : (x / d).log2 - F.p = s
  have hu : 0 < d * 2 ^ s := Nat.mul_pos hd (Nat.two_pow_pos _)
  have hx : x = d * 2 ^ s * (x / (d * 2 ^ s)) + x % (d * 2 ^ s) := (Nat.div_add_mod _ _).symm
  have hr : x % (d * 2 ^ s) < d * 2 ^ s := Nat.mod_lt _ hu
  have hq : x / (d * 2 ^ s) = x / d / 2 ^ s := by rw [Nat.div_div_eq_div_mul]
  have hq1 : x / (d * 2 ^ s) < 2 ^ (F.p + 1) := by
    rw [hq, Nat.div_lt_iff_lt_mul (Nat.two_pow_pos _), ← Nat.pow_add]
    by_cases h0 : x / d = 0
    · rw [h0]; exact Nat.two_pow_pos _
    · exact Nat.lt_of_lt_of_le (log2_bounds h0).2 (Nat.pow_le_pow_right (by omega) (by omega))
  have hq2 : s = 0 ∨ 2 ^ F.p ≤ x / (d * 2 ^ s) := by
    by_cases h : s = 0
    · exact .inl h
    · right
      have h0 : x / d ≠ 0 := by
        intro h0; rw [h0] at hs; simp at hs; omega
      rw [hq, Nat.le_div_iff_mul_le (Nat.two_pow_pos _), ← Nat.pow_add]
      exact Nat.le_trans (Nat.pow_le_pow_right (by omega) (by omega)) (log2_bounds h0).1
  generalize x / (d * 2 ^ s) = q at *
  generalize x % (d * 2 ^ s) = r at *
  have m1 : F.mag (s * 2 ^ F.p + q) * d = d * 2 ^ s * q := by
    rw [mag_units F hq2 (by omega), Nat.mul_comm (q * 2 ^ s), Nat.mul_comm q, Nat.mul_assoc]
  have m2 : F.mag (s * 2 ^ F.p + q + 1) * d = d * 2 ^ s * q + d * 2 ^ s := by
    rw [Nat.add_assoc, mag_units F (by omega) (by omega), Nat.mul_comm ((q + 1) * 2 ^ s), Nat.mul_comm (q + 1), ← Nat.mul_assoc,
      Nat.mul_add, Nat.mul_one]
  have par : (s * 2 ^ F.p + q) % 2 = q % 2 := by
    have : 2 ^ F.p = 2 * 2 ^ (F.p - 1) := by rw [← Nat.pow_succ']; congr 1; omega
    have e2 : s * 2 ^ F.p = 2 * (s * 2 ^ (F.p - 1)) := by rw [this, Nat.mul_left_comm]
    omega
  refine ⟨s * 2 ^ F.p + q, ?_, ?_, ?_⟩
  · rw [m1]; omega
  · rw [m2]; omega
  · rw [m1, m2, par]
    have c : (d * 2 ^ s < 2 * r ∨ 2 * r = d * 2 ^ s ∧ q % 2 = 1) ↔
        (d * 2 ^ s * q + d * 2 ^ s + d * 2 ^ s * q < 2 * x ∨
          2 * x = d * 2 ^ s * q + d * 2 ^ s + d * 2 ^ s * q ∧ q % 2 = 1) := by
      omega
    by_cases h : d * 2 ^ s < 2 * r ∨ 2 * r = d * 2 ^ s ∧ q % 2 = 1
    · rw [if_pos h, if_pos (c.1 h), Nat.add_assoc]
    · rw [if_neg h, if_neg (fun h' => h (c.2 h'))]

/-- Nearest among the magnitudes, and even if another is as near. -/
theorem roundTo_near (F : Fmt) (hp : 1 ≤ F.p) (a : Nat) {d : Nat} (hd : 0 < d) (y : Nat) :
    ((F.mag (roundTo F a d) * d : Nat) - (a * 2 ^ F.scale : Nat) : Int).natAbs ≤
      ((F.mag y * d : Nat) - (a * 2 ^ F.scale : Nat) : Int).natAbs ∧
    (F.mag y ≠ F.mag (roundTo F a d) →
      ((F.mag (roundTo F a d) * d : Nat) - (a * 2 ^ F.scale : Nat) : Int).natAbs =
      ((F.mag y * d : Nat) - (a * 2 ^ F.scale : Nat) : Int).natAbs → roundTo F a d % 2 = 0) := by
  obtain ⟨t, h1, h2, h3⟩ := roundTo_spec F hp a hd
  have hy : F.mag y * d ≤ F.mag t * d ∨ F.mag (t + 1) * d ≤ F.mag y * d := by
    by_cases h : y ≤ t
    · exact .inl (Nat.mul_le_mul_right _ (mag_le F h))
    · exact .inr (Nat.mul_le_mul_right _ (mag_le F (by omega)))
  have hne : ∀ z, F.mag y ≠ F.mag z → F.mag y * d ≠ F.mag z * d := by
    intro z h h'
    exact h (Nat.eq_of_mul_eq_mul_right hd h')
  generalize a * 2 ^ F.scale = x at *
  rw [h3]
  split
  · rename_i hh
    refine ⟨by omega, fun h h' => ?_⟩
    have := hne _ h
    omega
  · rename_i hh
    refine ⟨by omega, fun h h' => ?_⟩
    have := hne _ h
    omega

/-- The nearest one is found. -/
theorem roundTo_unique (F : Fmt) (hp : 1 ≤ F.p) (a : Nat) {d : Nat} (hd : 0 < d) {y top : Nat} (hy : y < top)
    (h1 : ∀ y' ≤ top, ((F.mag y * d : Nat) - (a * 2 ^ F.scale : Nat) : Int).natAbs ≤
      ((F.mag y' * d : Nat) - (a * 2 ^ F.scale : Nat) : Int).natAbs)
    (h2 : ∀ y' ≤ top, F.mag y' ≠ F.mag y → ((F.mag y * d : Nat) - (a * 2 ^ F.scale : Nat) : Int).natAbs =
      ((F.mag y' * d : Nat) - (a * 2 ^ F.scale : Nat) : Int).natAbs → y % 2 = 0) :
    roundTo F a d = y := by
  obtain ⟨t, g1, g2, g3⟩ := roundTo_spec F hp a hd
  have st : ∀ {i j}, i < j → F.mag i * d < F.mag j * d := fun h => Nat.mul_lt_mul_of_pos_right (mag_strict F h) hd
  have c1 : ¬y < t := by
    intro h
    by_cases ht : t ≤ top
    · have := h1 t ht; have := st h; omega
    · have := h1 top (Nat.le_refl _)
      have := st hy
      have := st (show top < t by omega)
      omega
  have c2 : ¬t + 1 < y := by
    intro h
    have := h1 (t + 1) (by omega); have := st h; omega
  have s0 := st (Nat.lt_add_one t)
  rw [g3]
  by_cases e : y = t
  · subst e
    have n1 := h1 (y + 1) (by omega)
    have n2 := h2 (y + 1) (by omega) (fun h => by rw [h] at s0; omega)
    rw [if_neg]
    omega
  · have e : y = t + 1 := by omega
    subst e
    have n1 := h1 t (by omega)
    have n2 := h2 t (by omega) (fun h => by rw [h] at s0; omega)
    rw [if_pos]
    omega

theorem top_even {F : Fmt} (hp : 1 ≤ F.p) : F.top % 2 = 0 := by
  have : 2 ^ F.p = 2 * 2 ^ (F.p - 1) := by rw [← Nat.pow_succ']; congr 1; omega
  unfold Fmt.top
  rw [this, Nat.mul_left_comm]
  omega

theorem finite_iff (F : Fmt) (t : Nat) : F.finite t ↔ t < F.top := by
  unfold Fmt.finite Fmt.top
  rw [Nat.div_lt_iff_lt_mul (Nat.two_pow_pos _)]

theorem top_lt {F : Fmt} (hk : 1 ≤ F.k) : F.top < 2 ^ (F.k + F.p) := by
  unfold Fmt.top
  rw [Nat.sub_mul, ← Nat.pow_add]
  have := Nat.two_pow_pos F.p
  have := Nat.two_pow_pos (F.k + F.p)
  omega

theorem notNaN_iff (F : Fmt) {b : BitVec F.width} : ¬F.IsNaN b ↔ F.low b ≤ F.top := by
  have hp : 0 < 2 ^ F.p := Nat.two_pow_pos _
  have hlow : F.low b < 2 ^ (F.k + F.p) := Nat.mod_lt _ (Nat.two_pow_pos _)
  unfold Fmt.IsNaN Fmt.top
  generalize F.low b = n at *
  have hn : n = n / 2 ^ F.p * 2 ^ F.p + n % 2 ^ F.p := by rw [Nat.mul_comm]; exact (Nat.div_add_mod _ _).symm
  have hm : n % 2 ^ F.p < 2 ^ F.p := Nat.mod_lt _ hp
  have hE : n / 2 ^ F.p < 2 ^ F.k := by
    rw [Nat.div_lt_iff_lt_mul hp, ← Nat.pow_add]; exact hlow
  generalize n / 2 ^ F.p = E at *
  generalize n % 2 ^ F.p = f at *
  subst hn
  constructor
  · intro h
    by_cases e : E = 2 ^ F.k - 1
    · subst e
      have : f = 0 := by
        by_cases hf : f = 0
        · exact hf
        · exact absurd ⟨rfl, hf⟩ h
      omega
    · have : (E + 1) * 2 ^ F.p ≤ (2 ^ F.k - 1) * 2 ^ F.p := Nat.mul_le_mul_right _ (by omega)
      rw [Nat.add_mul] at this
      omega
  · rintro h ⟨rfl, h'⟩
    omega

/-- A bit pattern from sign and body. -/
def mkBits (F : Fmt) (neg : Bool) (t : Nat) : BitVec F.width :=
  BitVec.ofNat F.width (t + if neg then 2 ^ (F.k + F.p) else 0)

theorem mkBits_spec (F : Fmt) (hk : 1 ≤ F.k) {neg : Bool} {t : Nat} (ht : t < 2 ^ (F.k + F.p)) :
    F.low (mkBits F neg t) = t ∧ F.neg (mkBits F neg t) = neg ∧ (mkBits F neg t).toNat % 2 = t % 2 := by
  have hw : 2 ^ F.width = 2 * 2 ^ (F.k + F.p) := by
    unfold Fmt.width; rw [← Nat.pow_succ']; congr 1; omega
  have h2 : 2 ^ (F.k + F.p) = 2 * 2 ^ (F.k + F.p - 1) := by rw [← Nat.pow_succ']; congr 1; omega
  have hn : (mkBits F neg t).toNat = t + if neg then 2 ^ (F.k + F.p) else 0 := by
    unfold mkBits
    rw [BitVec.toNat_ofNat, Nat.mod_eq_of_lt]
    split <;> omega
  unfold Fmt.low Fmt.neg
  rw [hn]
  cases neg
  · refine ⟨by simp [Nat.mod_eq_of_lt ht], by simp; omega, by simp⟩
  · refine ⟨by simp [Nat.mod_eq_of_lt ht], by simp, by simp only [if_true]; omega⟩

theorem mkBits_self (F : Fmt) (hk : 1 ≤ F.k) (b : BitVec F.width) : mkBits F (F.neg b) (F.low b) = b := by
  have hw : 2 ^ F.width = 2 * 2 ^ (F.k + F.p) := by
    unfold Fmt.width; rw [← Nat.pow_succ']; congr 1; omega
  have hb := b.isLt
  apply BitVec.eq_of_toNat_eq
  unfold mkBits Fmt.neg Fmt.low
  rw [BitVec.toNat_ofNat]
  simp only [decide_eq_true_eq]
  by_cases h : 2 ^ (F.k + F.p) ≤ b.toNat
  · rw [if_pos h]
    have : b.toNat % 2 ^ (F.k + F.p) = b.toNat - 2 ^ (F.k + F.p) := by
      rw [Nat.mod_eq_sub_mod h, Nat.mod_eq_of_lt (by omega)]
    rw [this, Nat.mod_eq_of_lt (by omega)]
    omega
  · rw [if_neg h, Nat.mod_eq_of_lt (by omega : b.toNat < 2 ^ (F.k + F.p)), Nat.add_zero, Nat.mod_eq_of_lt hb]

theorem even_bits (F : Fmt) (hk : 1 ≤ F.k) (hp : 1 ≤ F.p) (b : BitVec F.width) : b.toNat % 2 = F.low b % 2 := by
  have h : F.low b < 2 ^ (F.k + F.p) := Nat.mod_lt _ (Nat.two_pow_pos _)
  have := (mkBits_spec F hk (neg := F.neg b) h).2.2
  rwa [mkBits_self F hk] at this

/-- The constant's float is the one nearest to it. -/
theorem constFloat_near (F : Fmt) (hk : 1 ≤ F.k) (hp : 1 ≤ F.p) {a : Int} {d : Nat} (hd : 0 < d) {b : BitVec F.width}
    (h : constFloat F a d = some b) : F.Near a d b := by
  unfold constFloat at h
  dsimp only at h
  split at h
  · cases h
  rename_i ht
  cases h
  generalize hT : roundTo F a.natAbs d = t at *
  have ht' : t < 2 ^ (F.k + F.p) := by have := top_lt (F := F) hk; omega
  have hb := mkBits_spec F hk (neg := decide (a < 0 ∧ t ≠ 0)) ht'
  unfold mkBits at hb
  simp only [decide_eq_true_eq] at hb
  generalize BitVec.ofNat F.width (t + if a < 0 ∧ t ≠ 0 then 2 ^ (F.k + F.p) else 0) = b at *
  obtain ⟨h1, h2, h3⟩ := hb
  have key := roundTo_near F hp a.natAbs hd
  rw [hT] at key
  have hsc : ∀ b' : BitVec F.width, F.scaled b' * d = ((F.mag (F.low b') * d : Nat) : Int) ∨
      F.scaled b' * d = -((F.mag (F.low b') * d : Nat) : Int) := by
    intro b'
    unfold Fmt.scaled
    split
    · right; simp [Int.neg_mul]
    · left; simp
  have hsd : ∀ b' : BitVec F.width, F.scaled b' ≠ F.scaled b → F.scaled b' * d ≠ F.scaled b * d := by
    intro b' h h'
    exact h (Int.eq_of_mul_eq_mul_right (by omega) h')
  have hx : a * 2 ^ F.scale = if a < 0 then -((a.natAbs * 2 ^ F.scale : Nat) : Int) else ((a.natAbs * 2 ^ F.scale : Nat) : Int) := by
    have : ((a.natAbs * 2 ^ F.scale : Nat) : Int) = (a.natAbs : Int) * 2 ^ F.scale := by simp
    rw [this]
    split
    · rw [show (a.natAbs : Int) = -a by omega, Int.neg_mul, Int.neg_neg]
    · rw [show (a.natAbs : Int) = a by omega]
  have hb : F.scaled b * d = if a < 0 then -((F.mag t * d : Nat) : Int) else ((F.mag t * d : Nat) : Int) := by
    unfold Fmt.scaled
    rw [h2, h1]
    simp only [decide_eq_true_eq]
    by_cases h0 : t = 0
    · subst h0; simp [mag_zero]
    · by_cases ha : a < 0
      · simp [ha, h0, Int.neg_mul]
      · simp [ha]
  have hmeq : ∀ b' : BitVec F.width, F.mag (F.low b') = F.mag t → F.mag (F.low b') * d = F.mag t * d := by
    intro b' h; rw [h]
  refine ⟨?_, fun b' hb' => ?_, fun b' hb' hne heq => ?_, fun h0 => ?_⟩
  · unfold Fmt.IsFinite; rw [h1, finite_iff]; omega
  · have k1 := (key (F.low b')).1
    rw [hb, hx]
    rcases hsc b' with e | e <;> rw [e] <;> split <;> omega
  · have k1 := (key (F.low b')).1
    have k2 := (key (F.low b')).2
    have hne' := hsd b' hne
    rw [h3]
    by_cases hm : F.mag (F.low b') = F.mag t
    · have hm' := hmeq b' hm
      rw [hb, hx] at heq
      rw [hb] at hne'
      by_cases ht0 : t = 0
      · subst ht0; rfl
      exfalso
      have hpos : 0 < F.mag t * d := Nat.mul_pos (mag_pos F ht0) hd
      have hxp : a.natAbs * 2 ^ F.scale ≠ 0 := by
        intro h0
        have : a.natAbs = 0 := by
          rcases Nat.mul_eq_zero.1 h0 with h | h
          · exact h
          · have := Nat.two_pow_pos F.scale; omega
        have z := (key 0).1
        rw [h0, mag_zero] at z
        omega
      have he := hsc b'
      generalize F.mag (F.low b') * d = B at *
      generalize F.mag t * d = A at *
      generalize a.natAbs * 2 ^ F.scale = X at *
      subst hm'
      by_cases ha : a < 0
      · simp only [ha, if_true] at heq hne'
        rcases he with e | e <;> rw [e] at heq hne' <;> omega
      · simp only [ha, if_false] at heq hne'
        rcases he with e | e <;> rw [e] at heq hne' <;> omega
    · apply k2 hm
      rw [hb, hx] at heq
      rcases hsc b' with e | e <;> rw [e] at heq <;> split at heq <;> omega
  · unfold Fmt.scaled at h0
    rw [h1] at h0
    have : F.mag t = 0 := by split at h0 <;> omega
    have : t = 0 := by
      by_cases h : t = 0
      · exact h
      · have := mag_pos F h; omega
    rw [h2, this]; simp

/-- There is one nearest float, and `constFloat` finds it. -/
theorem Near.const {F : Fmt} (hk : 1 ≤ F.k) (hp : 1 ≤ F.p) {a : Int} {d : Nat} (hd : 0 < d) {b : BitVec F.width}
    (h : F.Near a d b) : constFloat F a d = some b := by
  have hfin : F.low b < F.top := (finite_iff F _).1 h.finite
  have htop := top_lt (F := F) hk
  have hx : a * 2 ^ F.scale = if a < 0 then -((a.natAbs * 2 ^ F.scale : Nat) : Int) else ((a.natAbs * 2 ^ F.scale : Nat) : Int) := by
    have : ((a.natAbs * 2 ^ F.scale : Nat) : Int) = (a.natAbs : Int) * 2 ^ F.scale := by simp
    rw [this]
    split
    · rw [show (a.natAbs : Int) = -a by omega, Int.neg_mul, Int.neg_neg]
    · rw [show (a.natAbs : Int) = a by omega]
  have hmk : ∀ (neg : Bool) (y : Nat), y ≤ F.top →
      F.scaled (mkBits F neg y) * d = (if neg then -((F.mag y * d : Nat) : Int) else ((F.mag y * d : Nat) : Int)) ∧
      ¬F.IsNaN (mkBits F neg y) ∧ F.scaled (mkBits F neg y) = (if neg then -(F.mag y : Int) else (F.mag y : Int)) := by
    intro neg y hy
    obtain ⟨m1, m2, m3⟩ := mkBits_spec F hk (neg := neg) (t := y) (by omega)
    refine ⟨?_, by rw [notNaN_iff, m1]; exact hy, ?_⟩
    · unfold Fmt.scaled
      rw [m1, m2]
      cases neg <;> simp [Int.neg_mul]
    · unfold Fmt.scaled
      rw [m1, m2]
  have hb : F.scaled b * d = if F.neg b then -((F.mag (F.low b) * d : Nat) : Int) else ((F.mag (F.low b) * d : Nat) : Int) := by
    unfold Fmt.scaled
    split <;> simp [Int.neg_mul]
  have hb' : F.scaled b = if F.neg b then -(F.mag (F.low b) : Int) else (F.mag (F.low b) : Int) := rfl
  -- the sign of b is that of a
  have hsign : F.neg b = decide (a < 0 ∧ F.low b ≠ 0) := by
    by_cases h0 : F.low b = 0
    · have : F.scaled b = 0 := by rw [hb', h0, mag_zero]; split <;> rfl
      rw [h.zero this]; simp [h0]
    · have hpos : 0 < F.mag (F.low b) * d := Nat.mul_pos (mag_pos F h0) hd
      have n1 := h.nearest (mkBits F false 0) (hmk false 0 (by omega)).2.1
      rw [(hmk false 0 (by omega)).1, mag_zero, hb, hx] at n1
      by_cases hn : F.neg b
      · simp only [hn, if_true] at n1
        simp only [Nat.zero_mul, Bool.false_eq_true, if_false] at n1
        have : a < 0 := by
          by_cases ha : a < 0
          · exact ha
          · rw [if_neg ha] at n1; omega
        simp [hn, this, h0]
      · simp only [hn, Bool.false_eq_true, if_false, Nat.zero_mul] at n1
        have : ¬a < 0 := by
          intro ha
          rw [if_pos ha] at n1; omega
        simp only [Bool.not_eq_true] at hn
        simp [hn, this]
  have hlow0 : F.low b = 0 → F.mag (F.low b) = 0 := fun h => by rw [h, mag_zero]
  have hu : roundTo F a.natAbs d = F.low b := by
    refine roundTo_unique F hp a.natAbs hd hfin (fun y hy => ?_) (fun y hy hne heq => ?_)
    · obtain ⟨e1, e2, _⟩ := hmk (decide (a < 0)) y hy
      have n1 := h.nearest _ e2
      rw [e1, hb, hx, hsign] at n1
      simp only [decide_eq_true_eq] at n1
      by_cases h0 : F.low b = 0
      · have hz : F.mag (F.low b) * d = 0 := by rw [hlow0 h0, Nat.zero_mul]
        by_cases ha : a < 0 <;> simp only [ha, h0, ne_eq, not_true_eq_false, and_false, if_false, if_true] at n1 <;> rw [h0] at hz <;> rw [h0] <;> omega
      · by_cases ha : a < 0 <;> simp only [ha, h0, ne_eq, not_false_eq_true, and_true, false_and, if_false, if_true] at n1 <;> omega
    · obtain ⟨e1, e2, e3⟩ := hmk (decide (a < 0)) y hy
      rw [← even_bits F hk hp]
      apply h.even _ e2
      · rw [e3, hb', hsign]
        simp only [decide_eq_true_eq]
        by_cases h0 : F.low b = 0
        · have hz : F.mag (F.low b) = 0 := hlow0 h0
          by_cases ha : a < 0 <;> simp only [ha, h0, ne_eq, not_true_eq_false, and_false, if_false, if_true] <;> rw [h0] at hz hne <;> omega
        · by_cases ha : a < 0 <;> simp only [ha, h0, ne_eq, not_false_eq_true, and_true, false_and, if_false, if_true] <;> omega
      · rw [e1, hb, hx, hsign]
        simp only [decide_eq_true_eq]
        by_cases h0 : F.low b = 0
        · have hz : F.mag (F.low b) * d = 0 := by rw [hlow0 h0, Nat.zero_mul]
          by_cases ha : a < 0 <;> simp only [ha, h0, ne_eq, not_true_eq_false, and_false, if_false, if_true] <;> rw [h0] at hz heq <;> omega
        · by_cases ha : a < 0 <;> simp only [ha, h0, ne_eq, not_false_eq_true, and_true, false_and, if_false, if_true] <;> omega
  unfold constFloat
  dsimp only
  rw [hu, if_neg (by omega)]
  congr 1
  have := mkBits_self F hk b
  rw [hsign] at this
  unfold mkBits at this
  simp only [decide_eq_true_eq] at this
  exact this

theorem decimals_pos {a d : Nat} {c : Nat × Nat} (h : c ∈ decimals a d) : 0 < c.2 := by
  unfold decimals at h
  rw [List.mem_append, List.mem_flatMap, List.mem_flatMap] at h
  rcases h with ⟨k, _, h⟩ | ⟨k, _, h⟩
  · obtain ⟨m, _, rfl⟩ := List.mem_map.1 h
    exact Nat.one_pos
  · obtain ⟨m, _, rfl⟩ := List.mem_map.1 h
    exact Nat.pow_pos (by omega)

/-- The decimal reads back as the same float. -/
theorem find_spec {F : Fmt} {a d : Nat} (hd : 0 < d) (l : List (Nat × Nat)) (hl : ∀ c ∈ l, 0 < c.2) :
    0 < ((l.find? fun c => roundTo F c.1 c.2 = roundTo F a d).getD (a, d)).2 ∧
    roundTo F ((l.find? fun c => roundTo F c.1 c.2 = roundTo F a d).getD (a, d)).1
      ((l.find? fun c => roundTo F c.1 c.2 = roundTo F a d).getD (a, d)).2 = roundTo F a d := by
  cases h : l.find? fun c => roundTo F c.1 c.2 = roundTo F a d with
  | none => exact ⟨hd, rfl⟩
  | some c => exact ⟨hl _ (List.mem_of_find?_eq_some h), by have := List.find?_some h; exact of_decide_eq_true this⟩

theorem shortest_spec {F : Fmt} {a d : Nat} (hd : 0 < d) :
    0 < (shortest F a d).2 ∧ roundTo F (shortest F a d).1 (shortest F a d).2 = roundTo F a d :=
  find_spec hd _ fun _ => decimals_pos

theorem literal_eq (a : Int) (d : Nat) : literal a d =
    (if a < 0 then -((shortest double a.natAbs d).1 : Int) else (shortest double a.natAbs d).1,
      (shortest double a.natAbs d).2) := by
  unfold literal
  rfl

theorem literal_pos {a : Int} {d : Nat} (hd : 0 < d) : 0 < (literal a d).2 := by
  obtain ⟨h, _⟩ := shortest_spec (F := double) (a := a.natAbs) hd
  obtain ⟨c, hc⟩ : ∃ c, shortest double a.natAbs d = c := ⟨_, rfl⟩
  rw [literal_eq, hc]
  rw [hc] at h
  exact h

theorem roundTo_zero (F : Fmt) (d : Nat) : roundTo F 0 d = 0 := by
  simp [roundTo]

/-- Printing a number and assigning the constant to a double gives the double of the number. -/
theorem literal_double {a : Int} {d : Nat} (hd : 0 < d) :
    constFloat double (literal a d).1 (literal a d).2 = constFloat double a d := by
  obtain ⟨_, h⟩ := shortest_spec (F := double) (a := a.natAbs) hd
  obtain ⟨c, hc⟩ : ∃ c, shortest double a.natAbs d = c := ⟨_, rfl⟩
  rw [literal_eq, hc]
  rw [hc] at h
  have e : (if a < 0 then -(c.1 : Int) else c.1).natAbs = c.1 := by split <;> omega
  unfold constFloat
  dsimp only
  rw [e, h]
  have e2 : ((if a < 0 then -(c.1 : Int) else c.1) < 0 ∧ roundTo double a.natAbs d ≠ 0) =
      (a < 0 ∧ roundTo double a.natAbs d ≠ 0) := by
    rw [eq_iff_iff]
    constructor
    · rintro ⟨h1, h2⟩
      refine ⟨?_, h2⟩
      split at h1
      · assumption
      · omega
    · rintro ⟨h1, h2⟩
      refine ⟨?_, h2⟩
      rw [if_pos h1]
      by_cases h0 : c.1 = 0
      · rw [h0, roundTo_zero] at h
        exact absurd h.symm h2
      · omega
  simp only [e2]

/-- Every natural number up to `2 ^ 53` is a double. -/
theorem exact_nat {n : Nat} (h : n ≤ 2 ^ 53) : ∃ y, double.mag y = n * 2 ^ double.scale := by
  by_cases e : n = 2 ^ 53
  · subst e
    exact ⟨(53 + 1023) * 2 ^ 52, by decide +kernel⟩
  · exact ⟨_, natToFloat_mag double (by decide) n (by
      show n.log2 ≤ 52
      by_cases h0 : n = 0
      · subst h0; decide
      · have : n.log2 < 53 := (Nat.log2_lt h0).2 (by omega)
        omega)⟩

theorem roundTo_exact {n : Nat} (h : n ≤ 2 ^ 53) : double.mag (roundTo double n 1) = n * 2 ^ double.scale := by
  obtain ⟨y, hy⟩ := exact_nat h
  have := (roundTo_near double (by decide) n (d := 1) Nat.one_pos y).1
  rw [hy] at this
  simp only [Nat.mul_one] at this
  omega

/-- No other integer reads back as a small integer's double. -/
theorem roundTo_inj {n m : Nat} (hn : n < 2 ^ 53) (h : roundTo double m 1 = roundTo double n 1) : m = n := by
  have hs : 0 < 2 ^ double.scale := Nat.two_pow_pos _
  have e := roundTo_exact (Nat.le_of_lt hn)
  rw [← h] at e
  by_cases hm : m ≤ 2 ^ 53
  · rw [roundTo_exact hm] at e
    exact Nat.eq_of_mul_eq_mul_right hs e
  · exfalso
    obtain ⟨y, hy⟩ := exact_nat (Nat.le_refl (2 ^ 53))
    have k := (roundTo_near double (by decide) m (d := 1) Nat.one_pos y).1
    rw [e, hy] at k
    simp only [Nat.mul_one] at k
    have h1 : n * 2 ^ double.scale < 2 ^ 53 * 2 ^ double.scale := Nat.mul_lt_mul_of_pos_right hn hs
    have h2 : 2 ^ 53 * 2 ^ double.scale ≤ m * 2 ^ double.scale := Nat.mul_le_mul_right _ (by omega)
    omega

/-- Integers of up to 53 bits are printed exactly. -/
theorem literal_int {z : Int} (h : z.natAbs < 2 ^ 53) : literal z 1 = (z, 1) := by
  obtain ⟨l, hl⟩ : ∃ l : List (Nat × Nat), ((List.range ((z.natAbs / 1).log2 / 3 + 2)).reverse.flatMap fun k =>
    (nextTo z.natAbs (1 * 10 ^ k)).map fun m => (m * 10 ^ k, 1)) = l := ⟨_, rfl⟩
  have hmem : (z.natAbs, 1) ∈ l := by
    rw [← hl]
    refine List.mem_flatMap.2 ⟨0, by simp, List.mem_map.2 ⟨z.natAbs, ?_, by simp⟩⟩
    have e : nearestNat z.natAbs (1 * 10 ^ 0) = z.natAbs := by unfold nearestNat; omega
    unfold nextTo
    rw [e]
    exact List.mem_cons_self ..
  have hf : ∃ c, (l.find? fun c : Nat × Nat => roundTo double c.1 c.2 = roundTo double z.natAbs 1) = some c := by
    cases hc : (l.find? fun c : Nat × Nat => roundTo double c.1 c.2 = roundTo double z.natAbs 1) with
    | some c => exact ⟨c, rfl⟩
    | none =>
      exfalso
      rw [List.find?_eq_none] at hc
      have := hc _ hmem
      simp at this
  obtain ⟨c, hc⟩ := hf
  have hs : shortest double z.natAbs 1 = c := by
    unfold shortest decimals
    rw [hl, List.find?_append, hc]
    rfl
  have h2 : c.2 = 1 := by
    have := List.mem_of_find?_eq_some hc
    rw [← hl] at this
    obtain ⟨k, _, h⟩ := List.mem_flatMap.1 this
    obtain ⟨m, _, rfl⟩ := List.mem_map.1 h
    rfl
  have h1 : roundTo double c.1 c.2 = roundTo double z.natAbs 1 := by simpa using List.find?_some hc
  rw [h2] at h1
  have := roundTo_inj h h1
  rw [literal_eq, hs, this, h2]
  refine Prod.ext ?_ rfl
  dsimp only
  split <;> omega

theorem constInt_int {w : Nat} {z : Int} (h1 : -(2 ^ (w - 1) : Int) ≤ z) (h2 : z < 2 ^ (w - 1)) :
    constInt w z 1 = some (BitVec.ofInt w z) := by
  unfold constInt
  have : z % (1 : Nat) = 0 := by omega
  have e : z / ((1 : Nat) : Int) = z := by omega
  rw [e, if_pos ⟨this, h1, h2⟩]

/-- Enough for the float of format `G` nearest to a number to depend on its nearest float of format
`F` only: the numbers half-way to the latter's neighbours lie between those half-way to the former's. -/
def Settles (F G : Fmt) (y z : Nat) : Prop :=
  0 < y ∧ y < F.top ∧ 0 < z ∧ z < G.top ∧
    (G.mag (z - 1) + G.mag z) * 2 ^ F.scale < (F.mag (y - 1) + F.mag y) * 2 ^ G.scale ∧
    (F.mag y + F.mag (y + 1)) * 2 ^ G.scale < (G.mag z + G.mag (z + 1)) * 2 ^ F.scale

instance (F G : Fmt) (y z : Nat) : Decidable (Settles F G y z) := inferInstanceAs (Decidable (_ ∧ _))

theorem settle_round {F G : Fmt} (hF : 1 ≤ F.p) (hG : 1 ≤ G.p) {y z a d : Nat} (hd : 0 < d) (hs : Settles F G y z)
    (h : roundTo F a d = y) : roundTo G a d = z := by
  obtain ⟨hy, hy', hz, ht, h1, h2⟩ := hs
  have n1 := (roundTo_near F hF a hd (y - 1)).1
  have n2 := (roundTo_near F hF a hd (y + 1)).1
  rw [h] at n1 n2
  have s1 := Nat.mul_lt_mul_of_pos_right (mag_strict F (show y - 1 < y by omega)) hd
  have s2 := Nat.mul_lt_mul_of_pos_right (mag_strict F (show y < y + 1 by omega)) hd
  have b1 : (F.mag (y - 1) + F.mag y) * d ≤ 2 * (a * 2 ^ F.scale) := by rw [Nat.add_mul]; omega
  have b2 : 2 * (a * 2 ^ F.scale) ≤ (F.mag y + F.mag (y + 1)) * d := by rw [Nat.add_mul]; omega
  have pd : 0 < 2 ^ F.scale := Nat.two_pow_pos _
  have ps : 0 < 2 ^ G.scale := Nat.two_pow_pos _
  generalize F.mag (y - 1) + F.mag y = m1 at *
  generalize F.mag y + F.mag (y + 1) = m2 at *
  have sw : 2 * (a * 2 ^ F.scale) * 2 ^ G.scale = 2 * (a * 2 ^ G.scale) * 2 ^ F.scale := by
    simp only [Nat.mul_assoc, Nat.mul_comm (2 ^ F.scale)]
  have c1 : (G.mag (z - 1) + G.mag z) * d < 2 * (a * 2 ^ G.scale) := by
    apply Nat.lt_of_mul_lt_mul_right (a := 2 ^ F.scale)
    calc (G.mag (z - 1) + G.mag z) * d * 2 ^ F.scale
        = (G.mag (z - 1) + G.mag z) * 2 ^ F.scale * d := by rw [Nat.mul_right_comm]
      _ < m1 * 2 ^ G.scale * d := Nat.mul_lt_mul_of_pos_right h1 hd
      _ = m1 * d * 2 ^ G.scale := by rw [Nat.mul_right_comm]
      _ ≤ 2 * (a * 2 ^ F.scale) * 2 ^ G.scale := Nat.mul_le_mul_right _ b1
      _ = 2 * (a * 2 ^ G.scale) * 2 ^ F.scale := sw
  have c2 : 2 * (a * 2 ^ G.scale) < (G.mag z + G.mag (z + 1)) * d := by
    apply Nat.lt_of_mul_lt_mul_right (a := 2 ^ F.scale)
    calc 2 * (a * 2 ^ G.scale) * 2 ^ F.scale
        = 2 * (a * 2 ^ F.scale) * 2 ^ G.scale := sw.symm
      _ ≤ m2 * d * 2 ^ G.scale := Nat.mul_le_mul_right _ b2
      _ = m2 * 2 ^ G.scale * d := by rw [Nat.mul_right_comm]
      _ < (G.mag z + G.mag (z + 1)) * 2 ^ F.scale * d := Nat.mul_lt_mul_of_pos_right h2 hd
      _ = (G.mag z + G.mag (z + 1)) * d * 2 ^ F.scale := by rw [Nat.mul_right_comm]
  rw [Nat.add_mul] at c1 c2
  have far : ∀ y', y' ≠ z → ((G.mag z * d : Nat) - (a * 2 ^ G.scale : Nat) : Int).natAbs <
      ((G.mag y' * d : Nat) - (a * 2 ^ G.scale : Nat) : Int).natAbs := by
    intro y' hne
    have st1 := Nat.mul_lt_mul_of_pos_right (mag_strict G (show z - 1 < z by omega)) hd
    have st2 := Nat.mul_lt_mul_of_pos_right (mag_strict G (show z < z + 1 by omega)) hd
    by_cases hl : y' < z
    · have := Nat.mul_le_mul_right d (mag_le G (show y' ≤ z - 1 by omega))
      omega
    · have := Nat.mul_le_mul_right d (mag_le G (show z + 1 ≤ y' by omega))
      omega
  refine roundTo_unique G hG a hd ht (fun y' _ => ?_) (fun y' _ hne heq => ?_)
  · by_cases he : y' = z
    · rw [he]; exact Nat.le_refl _
    · exact Nat.le_of_lt (far y' he)
  · have := far y' (fun he => hne (by rw [he]))
    omega

/-- All numbers that have the same nearest float of format `F` have the same one of format `G`. -/
theorem settled {F G : Fmt} (hF : 1 ≤ F.p) (hG : 1 ≤ G.p) (hFk : 1 ≤ F.k) (hGk : 1 ≤ G.k) {neg : Bool} {y z : Nat}
    (hs : Settles F G y z) {a : Int} {d : Nat} (hd : 0 < d)
    (h : F.Near a d (mkBits F neg y)) : G.Near a d (mkBits G neg z) := by
  have hs' := hs
  obtain ⟨hy, hy', hz, ht, -, -⟩ := hs'
  have e := Near.const hFk hF hd h
  apply constFloat_near G hGk hG hd
  unfold constFloat at e ⊢
  dsimp only at e ⊢
  split at e
  · cases e
  · rename_i htop
    have e := Option.some.inj e
    have hlt := top_lt (F := F) hFk
    have g := mkBits_spec F hFk (neg := decide (a < 0 ∧ roundTo F a.natAbs d ≠ 0)) (t := roundTo F a.natAbs d) (by omega)
    unfold mkBits at g
    simp only [decide_eq_true_eq] at g
    rw [e] at g
    have g' := mkBits_spec F hFk (neg := neg) (t := y) (by omega)
    have r1 : roundTo F a.natAbs d = y := g.1.symm.trans g'.1
    have r2 : neg = decide (a < 0 ∧ roundTo F a.natAbs d ≠ 0) := g'.2.1.symm.trans g.2.1
    have r3 := settle_round hF hG hd hs r1
    rw [r3, if_neg (by omega)]
    congr 1
    unfold mkBits
    congr 2
    rw [r2, r1]
    have hz' : z ≠ 0 := by omega
    have hy0 : y ≠ 0 := by omega
    simp [hz', hy0]

end Verif
