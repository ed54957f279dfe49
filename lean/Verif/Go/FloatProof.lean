import Verif.Go.Float
import Verif.Spec.Float
/-
The conversions to floats give the nearest float.
-/
namespace Verif
set_option linter.unusedSimpArgs false
set_option linter.unusedVariables false

theorem mag_of (F : Fmt) {E q : Nat} (hE : 1 ≤ E) (h1 : 2 ^ F.p ≤ q) (h2 : q ≤ 2 ^ (F.p + 1)) :
    F.mag (E * 2 ^ F.p + (q - 2 ^ F.p)) = q * 2 ^ (E - 1) := by
  have hp : 0 < 2 ^ F.p := Nat.two_pow_pos _
  unfold Fmt.mag
  rw [Nat.pow_succ] at h2
  by_cases hq : q < 2 ^ F.p * 2
  · have d1 : (E * 2 ^ F.p + (q - 2 ^ F.p)) / 2 ^ F.p = E := by
      rw [Nat.add_comm, Nat.add_mul_div_right _ _ hp, Nat.div_eq_of_lt (by omega), Nat.zero_add]
    have d2 : (E * 2 ^ F.p + (q - 2 ^ F.p)) % 2 ^ F.p = q - 2 ^ F.p := by
      rw [Nat.add_comm, Nat.add_mul_mod_self_right, Nat.mod_eq_of_lt (by omega)]
    rw [d1, d2, if_neg (by omega), show 2 ^ F.p + (q - 2 ^ F.p) = q by omega]
  · have hq' : q = 2 ^ F.p * 2 := by omega
    have e : E * 2 ^ F.p + (q - 2 ^ F.p) = (E + 1) * 2 ^ F.p := by rw [Nat.add_mul]; omega
    rw [e, Nat.mul_div_cancel _ hp, Nat.mul_mod_left, if_neg (by omega), hq', Nat.mul_assoc, ← Nat.pow_succ']
    simp only [Nat.add_zero, Nat.add_sub_cancel]
    rw [Nat.succ_eq_add_one, show E - 1 + 1 = E by omega]

/-- A magnitude is small, or a multiple of the unit of the exponent. -/
theorem mag_cases (F : Fmt) {E : Nat} (hE : 1 ≤ E) (y : Nat) :
    F.mag y < 2 ^ F.p * 2 ^ (E - 1) ∨ ∃ k, F.mag y = k * 2 ^ (E - 1) := by
  have hp : 0 < 2 ^ F.p := Nat.two_pow_pos _
  have hm : y % 2 ^ F.p < 2 ^ F.p := Nat.mod_lt _ hp
  unfold Fmt.mag
  by_cases h0 : y / 2 ^ F.p = 0
  · rw [if_pos h0]
    left
    calc y % 2 ^ F.p < 2 ^ F.p := hm
      _ ≤ 2 ^ F.p * 2 ^ (E - 1) := Nat.le_mul_of_pos_right _ (Nat.two_pow_pos _)
  · rw [if_neg h0]
    by_cases hl : y / 2 ^ F.p < E
    · left
      calc (2 ^ F.p + y % 2 ^ F.p) * 2 ^ (y / 2 ^ F.p - 1)
          < (2 ^ F.p * 2) * 2 ^ (y / 2 ^ F.p - 1) := Nat.mul_lt_mul_of_pos_right (by omega) (Nat.two_pow_pos _)
        _ = 2 ^ F.p * 2 ^ (y / 2 ^ F.p) := by
          rw [Nat.mul_assoc, ← Nat.pow_succ', Nat.succ_eq_add_one, Nat.sub_add_cancel (Nat.one_le_iff_ne_zero.2 h0)]
        _ ≤ 2 ^ F.p * 2 ^ (E - 1) := Nat.mul_le_mul_left _ (Nat.pow_le_pow_right (by omega) (by omega))
    · right
      refine ⟨(2 ^ F.p + y % 2 ^ F.p) * 2 ^ (y / 2 ^ F.p - E), ?_⟩
      rw [Nat.mul_assoc, ← Nat.pow_add]
      congr 2
      omega

/-- Nearest and even, on magnitudes. -/
structure NearMag (F : Fmt) (n t : Nat) : Prop where
  near : ∀ y, ((F.mag t : Int) - (n * 2 ^ F.scale : Nat)).natAbs ≤ ((F.mag y : Int) - (n * 2 ^ F.scale : Nat)).natAbs
  even : ∀ y, F.mag y ≠ F.mag t →
    ((F.mag t : Int) - (n * 2 ^ F.scale : Nat)).natAbs = ((F.mag y : Int) - (n * 2 ^ F.scale : Nat)).natAbs → t % 2 = 0

theorem NearMag.of_exact {F : Fmt} {n t : Nat} (h : F.mag t = n * 2 ^ F.scale) : NearMag F n t where
  near y := by rw [h]; simp
  even y hy he := by
    rw [h] at he hy
    simp only [Int.sub_self, Int.natAbs_zero] at he
    omega

theorem pick_near {F : Fmt} {U H ρ q q' t n E : Nat} (hE : 1 ≤ E) (hU : U = 2 ^ (E - 1)) (hH : U = 2 * H) (hρ : ρ < U)
    (hn : n * 2 ^ F.scale = q * U + ρ) (hq : 2 ^ F.p ≤ q) (hp : 1 ≤ F.p)
    (hq' : q' = if H < ρ ∨ (ρ = H ∧ q % 2 = 1) then q + 1 else q)
    (ht : F.mag t = q' * U) (ht2 : t % 2 = q' % 2) : NearMag F n t := by
  have key : ∀ y, (F.mag y < q * U) ∨ (F.mag y ≤ q * U) ∨ (q * U + U ≤ F.mag y) := by
    intro y
    rcases mag_cases F hE y with h | ⟨k, h⟩
    · left
      rw [← hU] at h
      exact Nat.lt_of_lt_of_le h (Nat.mul_le_mul_right _ hq)
    · rw [← hU] at h
      by_cases hk : k ≤ q
      · right; left; rw [h]; exact Nat.mul_le_mul_right _ hk
      · right; right
        rw [h, show q * U + U = (q + 1) * U by rw [Nat.add_mul]; omega]
        exact Nat.mul_le_mul_right _ (by omega)
  have e1 : (q + 1) * U = q * U + U := by rw [Nat.add_mul]; omega
  constructor
  · intro y
    have := key y
    rw [hn, ht, hq']
    split
    · rw [e1]; omega
    · rename_i hh; omega
  · intro y hy he
    have := key y
    rw [hn, ht] at he
    rw [ht] at hy
    rw [ht2, hq']
    rw [hq'] at he hy
    split
    · rename_i hh
      rw [if_pos hh, e1] at he hy
      rcases hh with hh | hh
      · omega
      · omega
    · rename_i hh
      rw [if_neg hh] at he hy
      omega

theorem log2_bounds {n : Nat} (h : n ≠ 0) : 2 ^ n.log2 ≤ n ∧ n < 2 ^ (n.log2 + 1) :=
  ⟨Nat.log2_self_le h, Nat.lt_log2_self⟩

/-- What `natToFloat` computes. -/
theorem natToFloat_shape (p bias n : Nat) (hn : n ≠ 0) : ∃ q', natToFloat p bias n = (n.log2 + bias) * 2 ^ p + (q' - 2 ^ p) ∧
    2 ^ p ≤ q' ∧ q' ≤ 2 ^ (p + 1) ∧
    ((n.log2 ≤ p ∧ q' = n * 2 ^ (p - n.log2)) ∨
     (p < n.log2 ∧ q' = if 2 ^ (n.log2 - p - 1) < n % 2 ^ (n.log2 - p) ∨
        (n % 2 ^ (n.log2 - p) = 2 ^ (n.log2 - p - 1) ∧ n / 2 ^ (n.log2 - p) % 2 = 1)
        then n / 2 ^ (n.log2 - p) + 1 else n / 2 ^ (n.log2 - p))) := by
  obtain ⟨h1, h2⟩ := log2_bounds hn
  unfold natToFloat
  rw [if_neg hn]
  dsimp only
  by_cases he : n.log2 ≤ p
  · rw [if_pos he]
    refine ⟨_, rfl, ?_, ?_, .inl ⟨he, rfl⟩⟩
    · calc 2 ^ p = 2 ^ n.log2 * 2 ^ (p - n.log2) := by rw [← Nat.pow_add]; congr 1; omega
        _ ≤ _ := Nat.mul_le_mul_right _ h1
    · calc n * 2 ^ (p - n.log2) ≤ 2 ^ (n.log2 + 1) * 2 ^ (p - n.log2) := Nat.mul_le_mul_right _ (by omega)
        _ = 2 ^ (p + 1) := by rw [← Nat.pow_add]; congr 1; omega
  · rw [if_neg he]
    have hpos : 0 < 2 ^ (n.log2 - p) := Nat.two_pow_pos _
    have a : 2 ^ p ≤ n / 2 ^ (n.log2 - p) := by
      rw [Nat.le_div_iff_mul_le hpos, ← Nat.pow_add]
      rw [show p + (n.log2 - p) = n.log2 by omega]; exact h1
    have b : n / 2 ^ (n.log2 - p) < 2 ^ (p + 1) := by
      rw [Nat.div_lt_iff_lt_mul hpos, ← Nat.pow_add]
      rw [show p + 1 + (n.log2 - p) = n.log2 + 1 by omega]; exact h2
    refine ⟨_, rfl, ?_, ?_, .inr ⟨by omega, rfl⟩⟩
    · split <;> omega
    · split <;> omega

theorem natToFloat_mag (F : Fmt) (hb : 1 ≤ F.bias) (n : Nat) (h : n.log2 ≤ F.p) :
    F.mag (natToFloat F.p F.bias n) = n * 2 ^ F.scale := by
  by_cases hn : n = 0
  · subst hn; simp [natToFloat, Fmt.mag]
  · obtain ⟨q, h1, h2, h3, h4⟩ := natToFloat_shape F.p F.bias n hn
    rw [h1, mag_of F (by omega) h2 h3]
    rcases h4 with ⟨_, rfl⟩ | ⟨h5, _⟩
    · rw [Nat.mul_assoc, ← Nat.pow_add]
      unfold Fmt.scale
      congr 2
      omega
    · omega

theorem natToFloat_near (F : Fmt) (hb : 1 ≤ F.bias) (hp : 1 ≤ F.p) (n : Nat) : NearMag F n (natToFloat F.p F.bias n) := by
  by_cases he : n.log2 ≤ F.p
  · exact .of_exact (natToFloat_mag F hb n he)
  · have hn : n ≠ 0 := by rintro rfl; simp at he
    obtain ⟨q', h1, h2, h3, h4⟩ := natToFloat_shape F.p F.bias n hn
    rcases h4 with ⟨h5, _⟩ | ⟨h5, h6⟩
    · omega
    have hpos : 0 < 2 ^ (n.log2 - F.p) := Nat.two_pow_pos _
    have hc : 0 < 2 ^ F.scale := Nat.two_pow_pos _
    have eU : 2 ^ (n.log2 - F.p) * 2 ^ F.scale = 2 ^ (n.log2 + F.bias - 1) := by
      rw [← Nat.pow_add]; unfold Fmt.scale; congr 1; omega
    have hh : 2 ^ (n.log2 - F.p) = 2 * 2 ^ (n.log2 - F.p - 1) := by
      rw [← Nat.pow_succ']; congr 1; omega
    have a : 2 ^ F.p ≤ n / 2 ^ (n.log2 - F.p) := by
      rw [Nat.le_div_iff_mul_le hpos, ← Nat.pow_add]
      rw [show F.p + (n.log2 - F.p) = n.log2 by omega]; exact (log2_bounds hn).1
    refine pick_near (E := n.log2 + F.bias) (U := 2 ^ (n.log2 - F.p) * 2 ^ F.scale) (H := 2 ^ (n.log2 - F.p - 1) * 2 ^ F.scale)
      (ρ := n % 2 ^ (n.log2 - F.p) * 2 ^ F.scale) (q := n / 2 ^ (n.log2 - F.p)) (q' := q') (by omega) eU ?_ ?_ ?_ a hp ?_ ?_ ?_
    · rw [hh, Nat.mul_assoc]
    · exact Nat.mul_lt_mul_of_pos_right (Nat.mod_lt _ hpos) hc
    · rw [← Nat.mul_assoc, ← Nat.add_mul]
      congr 1
      rw [Nat.mul_comm]
      exact (Nat.div_add_mod _ _).symm
    · rw [h6]
      have i1 : (2 ^ (n.log2 - F.p - 1) < n % 2 ^ (n.log2 - F.p)) =
          (2 ^ (n.log2 - F.p - 1) * 2 ^ F.scale < n % 2 ^ (n.log2 - F.p) * 2 ^ F.scale) :=
        propext (Nat.mul_lt_mul_right hc).symm
      have i2 : (n % 2 ^ (n.log2 - F.p) = 2 ^ (n.log2 - F.p - 1)) =
          (n % 2 ^ (n.log2 - F.p) * 2 ^ F.scale = 2 ^ (n.log2 - F.p - 1) * 2 ^ F.scale) :=
        propext (Nat.mul_right_cancel_iff hc).symm
      simp only [i1, i2]
    · rw [h1, mag_of F (by omega) h2 h3, eU]
    · rw [h1]
      have : 2 ^ F.p = 2 * 2 ^ (F.p - 1) := by rw [← Nat.pow_succ']; congr 1; omega
      have e2 : (n.log2 + F.bias) * 2 ^ F.p = 2 * ((n.log2 + F.bias) * 2 ^ (F.p - 1)) := by
        rw [this, Nat.mul_left_comm]
      omega

/-- The result is small enough for exponent and fraction bits, and finite. -/
theorem natToFloat_lt (F : Fmt) {n m : Nat} (hn : n < 2 ^ m) :
    natToFloat F.p F.bias n < (m + F.bias + 1) * 2 ^ F.p := by
  have hp : 0 < 2 ^ F.p := Nat.two_pow_pos _
  by_cases h : n = 0
  · subst h; simp [natToFloat, hp]
  · obtain ⟨q', h1, h2, h3, _⟩ := natToFloat_shape F.p F.bias n h
    rw [h1]
    have hl : n.log2 < m := (Nat.log2_lt h).2 hn
    rw [Nat.pow_succ] at h3
    calc (n.log2 + F.bias) * 2 ^ F.p + (q' - 2 ^ F.p) ≤ (n.log2 + F.bias) * 2 ^ F.p + 2 ^ F.p := by omega
      _ = (n.log2 + F.bias + 1) * 2 ^ F.p := by rw [Nat.add_mul (n.log2 + F.bias)]; omega
      _ < (m + F.bias + 1) * 2 ^ F.p := Nat.mul_lt_mul_of_pos_right (by omega) hp

theorem dist_flip (a n : Nat) : (-(a : Int) - -(n : Int)).natAbs = ((a : Int) - n).natAbs := by omega
theorem dist_far (a n : Nat) : ((a : Int) - n).natAbs ≤ (-(a : Int) - n).natAbs := by omega
theorem dist_far' (a n : Nat) : ((a : Int) - n).natAbs ≤ ((a : Int) - -(n : Int)).natAbs := by omega

/-- Signs. -/
theorem nearest_of (F : Fmt) {x : Int} {t : Nat} {b : BitVec F.width} (h : NearMag F x.natAbs t) (hf : F.finite t)
    (hlow : F.low b = t) (hneg : F.neg b = decide (x < 0)) (hpar : b.toNat % 2 = t % 2) (h0 : x = 0 → t = 0) :
    F.Nearest x b := by
  have hcast : ∀ n : Nat, ((n * 2 ^ F.scale : Nat) : Int) = (n : Int) * 2 ^ F.scale := by
    intro n; simp
  have hsc : ∀ b : BitVec F.width, F.scaled b = F.mag (F.low b) ∨ F.scaled b = -(F.mag (F.low b) : Int) := by
    intro b; unfold Fmt.scaled; split <;> simp
  have hc : 0 < 2 ^ F.scale := Nat.two_pow_pos _
  refine ⟨by unfold Fmt.IsFinite; rw [hlow]; exact hf, fun b' hb' => ?_, fun b' hb' hne heq => ?_⟩
  · have h1 := h.near (F.low b')
    have hb : F.scaled b = if x < 0 then -(F.mag t : Int) else F.mag t := by
      unfold Fmt.scaled; rw [hneg, hlow]; simp only [decide_eq_true_eq]
    by_cases hx : x < 0
    · have hxe : x * 2 ^ F.scale = -((x.natAbs * 2 ^ F.scale : Nat) : Int) := by
        rw [hcast, show (x.natAbs : Int) = -x by omega, Int.neg_mul, Int.neg_neg]
      rw [hb, if_pos hx, hxe]
      rcases hsc b' with e | e <;> rw [e] <;> omega
    · have hxe : x * 2 ^ F.scale = ((x.natAbs * 2 ^ F.scale : Nat) : Int) := by
        rw [hcast, show (x.natAbs : Int) = x by omega]
      rw [hb, if_neg hx, hxe]
      rcases hsc b' with e | e <;> rw [e] <;> omega
  · rw [hpar]
    have h1 := h.near (F.low b')
    have h2 := h.even (F.low b')
    have hb : F.scaled b = if x < 0 then -(F.mag t : Int) else F.mag t := by
      unfold Fmt.scaled; rw [hneg, hlow]; simp only [decide_eq_true_eq]
    by_cases hx0 : x = 0
    · rw [h0 hx0]
    · have hNpos : 0 < x.natAbs * 2 ^ F.scale := Nat.mul_pos (by omega) hc
      by_cases hx : x < 0
      · have hxe : x * 2 ^ F.scale = -((x.natAbs * 2 ^ F.scale : Nat) : Int) := by
          rw [hcast, show (x.natAbs : Int) = -x by omega, Int.neg_mul, Int.neg_neg]
        rw [hb, if_pos hx, hxe] at heq
        rw [hb, if_pos hx] at hne
        rcases hsc b' with e | e <;> rw [e] at heq hne
        · exact h2 (by omega) (by omega)
        · exact h2 (by omega) (by omega)
      · have hxe : x * 2 ^ F.scale = ((x.natAbs * 2 ^ F.scale : Nat) : Int) := by
          rw [hcast, show (x.natAbs : Int) = x by omega]
        rw [hb, if_neg hx, hxe] at heq
        rw [hb, if_neg hx] at hne
        rcases hsc b' with e | e <;> rw [e] at heq hne
        · exact h2 (by omega) (by omega)
        · exact h2 (by omega) (by omega)

/-- The bits of a conversion. -/
theorem bits_of (F : Fmt) (x : Int) {t : Nat} (hf : F.finite t) (hk : 1 ≤ F.k) {b : BitVec F.width}
    (hb : b = BitVec.ofNat F.width (t + if x < 0 then 2 ^ (F.k + F.p) else 0)) (hp : 1 ≤ F.p) :
    F.low b = t ∧ F.neg b = decide (x < 0) ∧ b.toNat % 2 = t % 2 := by
  have hpp : 0 < 2 ^ F.p := Nat.two_pow_pos _
  have ht : t < 2 ^ (F.k + F.p) := by
    unfold Fmt.finite at hf
    rw [Nat.div_lt_iff_lt_mul hpp, Nat.sub_mul, ← Nat.pow_add] at hf
    omega
  have hw : 2 ^ F.width = 2 * 2 ^ (F.k + F.p) := by
    unfold Fmt.width; rw [← Nat.pow_succ']; congr 1; omega
  have h2 : 2 ^ (F.k + F.p) = 2 * 2 ^ (F.k + F.p - 1) := by rw [← Nat.pow_succ']; congr 1; omega
  have hn : b.toNat = t + if x < 0 then 2 ^ (F.k + F.p) else 0 := by
    rw [hb, BitVec.toNat_ofNat, Nat.mod_eq_of_lt]
    split <;> omega
  unfold Fmt.low Fmt.neg
  rw [hn]
  by_cases hx : x < 0
  · simp only [if_pos hx]
    refine ⟨by rw [Nat.add_mod_right, Nat.mod_eq_of_lt ht], by simp [hx], by omega⟩
  · simp only [if_neg hx, Nat.add_zero]
    exact ⟨Nat.mod_eq_of_lt ht, by simp [hx]; omega, trivial⟩

theorem finite_of_lt (F : Fmt) {n m : Nat} (hn : n < 2 ^ m) (hm : m + F.bias + 1 ≤ 2 ^ F.k - 1) :
    F.finite (natToFloat F.p F.bias n) := by
  unfold Fmt.finite
  rw [Nat.div_lt_iff_lt_mul (Nat.two_pow_pos _)]
  exact Nat.lt_of_lt_of_le (natToFloat_lt F hn) (Nat.mul_le_mul_right _ hm)

theorem near64 {x : Int} (hx : x.natAbs < 2 ^ 64) : double.Nearest x (intToFloat64 x) := by
  have hf := finite_of_lt double hx (by decide)
  obtain ⟨h1, h2, h3⟩ := bits_of double x hf (by decide) (b := intToFloat64 x) rfl (by decide)
  exact nearest_of double (natToFloat_near double (by decide) (by decide) _) hf h1 h2 h3
    (by rintro rfl; simp [natToFloat])

theorem near32 {x : Int} (hx : x.natAbs < 2 ^ 64) : single.Nearest x (intToFloat32 x) := by
  have hf := finite_of_lt single hx (by decide)
  obtain ⟨h1, h2, h3⟩ := bits_of single x hf (by decide) (b := intToFloat32 x) rfl (by decide)
  exact nearest_of single (natToFloat_near single (by decide) (by decide) _) hf h1 h2 h3
    (by rintro rfl; simp [natToFloat])

/-- Integers of up to 53 bits are doubles. -/
theorem exact64 {x : Int} (hx : x.natAbs < 2 ^ 53) : double.Exact x (intToFloat64 x) := by
  have hf := finite_of_lt double (Nat.lt_trans hx (by decide : 2 ^ 53 < 2 ^ 64)) (by decide)
  obtain ⟨h1, h2, h3⟩ := bits_of double x hf (by decide) (b := intToFloat64 x) rfl (by decide)
  refine ⟨by unfold Fmt.IsFinite; rw [h1]; exact hf, ?_⟩
  have hm := natToFloat_mag double (by decide) x.natAbs (by
    by_cases h0 : x.natAbs = 0
    · rw [h0]; decide
    · have := (Nat.log2_lt h0).2 hx
      have e : double.p = 52 := rfl
      omega)
  unfold Fmt.scaled
  rw [h1, h2, hm]
  have hcast : ((x.natAbs * 2 ^ double.scale : Nat) : Int) = (x.natAbs : Int) * 2 ^ double.scale := by simp
  rw [hcast]
  by_cases h : x < 0
  · simp only [h, decide_true, if_true]
    rw [show (x.natAbs : Int) = -x by omega, Int.neg_mul, Int.neg_neg]
  · simp only [h, decide_false, if_false, Bool.false_eq_true]
    rw [show (x.natAbs : Int) = x by omega]

/-- The body of `float32To64`. -/
def widen (e f : Nat) : Nat :=
  if e = 255 then
    if f = 0 then 2047 * 2 ^ 52
    else 2047 * 2 ^ 52 + (if f < 2 ^ 22 then f + 2 ^ 22 else f) * 2 ^ 29
  else if e = 0 then
    if f = 0 then 0 else (f.log2 + 874) * 2 ^ 52 + (f * 2 ^ (52 - f.log2) - 2 ^ 52)
  else (e + 896) * 2 ^ 52 + f * 2 ^ 29

theorem widen_sub {f : Nat} (h0 : f ≠ 0) (hf : f < 2 ^ 23) :
    f.log2 < 23 ∧ 2 ^ 52 ≤ f * 2 ^ (52 - f.log2) ∧ f * 2 ^ (52 - f.log2) < 2 ^ 53 := by
  obtain ⟨h1, h2⟩ := log2_bounds h0
  have hl := (Nat.log2_lt h0).2 hf
  refine ⟨hl, ?_, ?_⟩
  · calc 2 ^ 52 = 2 ^ f.log2 * 2 ^ (52 - f.log2) := by rw [← Nat.pow_add]; congr 1; omega
      _ ≤ _ := Nat.mul_le_mul_right _ h1
  · calc f * 2 ^ (52 - f.log2) < 2 ^ (f.log2 + 1) * 2 ^ (52 - f.log2) :=
          Nat.mul_lt_mul_of_pos_right h2 (Nat.two_pow_pos _)
      _ = 2 ^ 53 := by rw [← Nat.pow_add]; congr 1; omega

theorem widen_lt {e f : Nat} (he : e < 256) (hf : f < 2 ^ 23) : widen e f < 2 ^ 63 := by
  unfold widen
  split
  · split
    · omega
    · split <;> omega
  · split
    · split
      · omega
      · rename_i h0
        obtain ⟨h1, h2, h3⟩ := widen_sub h0 hf
        omega
    · omega

theorem widen_mag {e f : Nat} (he : e < 255) (hf : f < 2 ^ 23) :
    double.finite (widen e f) ∧ double.mag (widen e f) = single.mag (e * 2 ^ 23 + f) * 2 ^ 925 := by
  have hs : single.mag (e * 2 ^ 23 + f) = if e = 0 then f else (2 ^ 23 + f) * 2 ^ (e - 1) := by
    unfold Fmt.mag
    have d1 : (e * 2 ^ 23 + f) / 2 ^ single.p = e := by
      show (e * 2 ^ 23 + f) / 2 ^ 23 = e
      omega
    have d2 : (e * 2 ^ 23 + f) % 2 ^ single.p = f := by
      show (e * 2 ^ 23 + f) % 2 ^ 23 = f
      omega
    rw [d1, d2]; rfl
  have hp : double.p = 52 := rfl
  rw [hs]
  unfold widen
  rw [if_neg (by omega)]
  by_cases h0 : e = 0
  · rw [if_pos h0, if_pos h0]
    by_cases hf0 : f = 0
    · subst hf0
      rw [if_pos rfl]
      refine ⟨?_, ?_⟩
      · show 0 / 2 ^ 52 < 2 ^ 11 - 1
        decide
      · show double.mag 0 = 0 * 2 ^ 925
        rw [Nat.zero_mul]; decide
    · rw [if_neg hf0]
      obtain ⟨h1, h2, h3⟩ := widen_sub hf0 hf
      refine ⟨?_, ?_⟩
      · show ((f.log2 + 874) * 2 ^ 52 + (f * 2 ^ (52 - f.log2) - 2 ^ 52)) / 2 ^ 52 < 2 ^ 11 - 1
        omega
      · have := mag_of double (E := f.log2 + 874) (q := f * 2 ^ (52 - f.log2)) (by omega) h2 (Nat.le_of_lt h3)
        rw [hp] at this
        rw [this, Nat.mul_assoc, ← Nat.pow_add, show 52 - f.log2 + (f.log2 + 874 - 1) = 925 by omega]
  · rw [if_neg h0, if_neg h0]
    refine ⟨?_, ?_⟩
    · show ((e + 896) * 2 ^ 52 + f * 2 ^ 29) / 2 ^ 52 < 2 ^ 11 - 1
      omega
    · have := mag_of double (E := e + 896) (q := (2 ^ 23 + f) * 2 ^ 29) (by omega)
        (by show 2 ^ 52 ≤ _; omega) (by show _ ≤ 2 ^ 53; omega)
      rw [hp, show (2 ^ 23 + f) * 2 ^ 29 - 2 ^ 52 = f * 2 ^ 29 by omega] at this
      rw [this, Nat.mul_assoc, Nat.mul_assoc, ← Nat.pow_add, ← Nat.pow_add,
        show 29 + (e + 896 - 1) = e - 1 + 925 by omega]

theorem float32To64_toNat (x : BitVec 32) :
    (float32To64 x).toNat = x.toNat / 2 ^ 31 * 2 ^ 63 + widen (x.toNat / 2 ^ 23 % 2 ^ 8) (x.toNat % 2 ^ 23) := by
  have h1 : widen (x.toNat / 2 ^ 23 % 2 ^ 8) (x.toNat % 2 ^ 23) < 2 ^ 63 :=
    widen_lt (Nat.mod_lt _ (by decide)) (Nat.mod_lt _ (by decide))
  have h2 : x.toNat < 2 ^ 32 := x.isLt
  show (BitVec.ofNat 64 (x.toNat / 2 ^ 31 * 2 ^ 63 + widen (x.toNat / 2 ^ 23 % 2 ^ 8) (x.toNat % 2 ^ 23))).toNat = _
  rw [BitVec.toNat_ofNat, Nat.mod_eq_of_lt]
  omega

theorem sameNumber (x : BitVec 32) : SameNumber x (float32To64 x) := by
  have h0 := float32To64_toNat x
  have h1 : widen (x.toNat / 2 ^ 23 % 2 ^ 8) (x.toNat % 2 ^ 23) < 2 ^ 63 :=
    widen_lt (Nat.mod_lt _ (by decide)) (Nat.mod_lt _ (by decide))
  have h2 : x.toNat < 2 ^ 32 := x.isLt
  have hl : double.low (float32To64 x) = widen (x.toNat / 2 ^ 23 % 2 ^ 8) (x.toNat % 2 ^ 23) := by
    show (float32To64 x).toNat % 2 ^ 63 = _
    rw [h0]; omega
  have hneg : double.neg (float32To64 x) = single.neg x := by
    show decide (2 ^ 63 ≤ (float32To64 x).toNat) = decide (2 ^ 31 ≤ x.toNat)
    rw [h0, decide_eq_decide]; omega
  have hls : single.low x = (x.toNat / 2 ^ 23 % 2 ^ 8) * 2 ^ 23 + x.toNat % 2 ^ 23 := by
    show x.toNat % 2 ^ 31 = _
    omega
  have he : single.low x / 2 ^ single.p = x.toNat / 2 ^ 23 % 2 ^ 8 := by
    show single.low x / 2 ^ 23 = _
    rw [hls]; omega
  have hm : single.low x % 2 ^ single.p = x.toNat % 2 ^ 23 := by
    show single.low x % 2 ^ 23 = _
    rw [hls]; omega
  have hf : x.toNat % 2 ^ 23 < 2 ^ 23 := Nat.mod_lt _ (by decide)
  refine ⟨hneg, fun hfin => ?_, fun hi => ?_, fun hn => ?_⟩
  · have hlt : x.toNat / 2 ^ 23 % 2 ^ 8 < 255 := by
      have : single.low x / 2 ^ single.p < 2 ^ 8 - 1 := hfin
      rw [he] at this; exact this
    obtain ⟨a, b⟩ := widen_mag hlt hf
    refine ⟨by show double.finite _; rw [hl]; exact a, ?_⟩
    unfold Fmt.scaled
    rw [hneg, hl, b, ← hls]
    have hs : ∀ m : Int, m * 2 ^ 925 * 2 ^ single.scale = m * 2 ^ double.scale := by
      intro m
      rw [Int.mul_assoc, ← Int.pow_add]; congr 1
    have hcast : ((single.mag (single.low x) * 2 ^ 925 : Nat) : Int) = (single.mag (single.low x) : Int) * 2 ^ 925 := by
      rw [Int.natCast_mul]; norm_cast
    split
    · rw [hcast, ← Int.neg_mul, hs]
    · rw [hcast, hs]
  · unfold Fmt.IsInf at hi ⊢
    rw [he, hm] at hi
    rw [hl, show x.toNat / 2 ^ 23 % 2 ^ 8 = 255 from hi.1, hi.2]
    decide
  · unfold Fmt.IsNaN at hn ⊢
    rw [he, hm] at hn
    rw [hl, show x.toNat / 2 ^ 23 % 2 ^ 8 = 255 from hn.1]
    have h3 := hn.2
    unfold widen
    rw [if_pos rfl, if_neg h3]
    show (_ / 2 ^ 52 = 2 ^ 11 - 1) ∧ _ % 2 ^ 52 ≠ 0
    split <;> omega
end Verif
