import Verif.Spec.GoNumber
import Verif.Go.LiteralProof
/-
The text that `fmt`'s `%v` makes of a float64 (strconv.FormatFloat with format 'g' and precision -1), and that it is a
constant of the number that Go/Literal says.
-/
namespace Verif
open Spec.Go

/-- Without the zeros at the end. -/
def stripZeros (s : Str) : Str := (s.reverse.dropWhile (· = '0')).reverse

/-- `k`, if the number is `10 ^ k`. -/
def tenPower (q : Nat) : Nat := ((List.range 1200).find? fun k => decide (10 ^ k = q)).getD 0

/-- The digits and the place of the decimal point (strconv's `decimalSlice`): `c / q` is `0.D * 10 ^ dp`. -/
def decimalSlice (c q : Nat) : Str × Int :=
  if c = 0 then ([], 0) else (stripZeros (Nat.toDigits 10 c), ((Nat.toDigits 10 c).length : Int) - tenPower q)

/-- The digits after the point, if there are any. -/
def fracText (s : Str) : Str := if s = [] then [] else '.' :: s

/-- The exponent, with two digits or more. -/
def expText (e : Int) : Str :=
  'e' :: (if e < 0 then '-' else '+') :: (if e.natAbs < 10 then '0' :: Nat.toDigits 10 e.natAbs else Nat.toDigits 10 e.natAbs)

/-- `%e`, strconv's fmtE. -/
def fmtE (D : Str) (dp : Int) : Str := D.take 1 ++ (fracText (D.drop 1) ++ expText (dp - 1))

/-- `%f`, strconv's fmtF. -/
def fmtF (D : Str) (dp : Int) : Str :=
  if 0 < dp then D.take dp.toNat ++ List.replicate (dp.toNat - D.length) '0' ++ fracText (D.drop dp.toNat)
  else '0' :: fracText (List.replicate (-dp).toNat '0' ++ D)

/-- `%g` with the fewest digits, strconv's formatDigits. -/
def fmtG (D : Str) (dp : Int) : Str := if dp - 1 < -4 ∨ 6 ≤ dp - 1 then fmtE D dp else fmtF D dp

/-- What `%v` prints for the float64 nearest to `a / d`. Simplification: -0 is printed as 0; as constants they are the same. -/
def numberText (a : Int) (d : Nat) : Str :=
  (if (literal a d).1 < 0 then ['-'] else []) ++
    fmtG (decimalSlice (literal a d).1.natAbs (literal a d).2).1 (decimalSlice (literal a d).1.natAbs (literal a d).2).2

/-- Words and signs. -/
def chunks : Str → List Tok
  | [] => []
  | c :: s => if wordChar c then match chunks s with
      | .word x :: ts => .word (c :: x) :: ts
      | ts => .word [c] :: ts
    else .sign c :: chunks s

/-- The tokens of the text of a number. -/
def numberToks (a : Int) (d : Nat) : List Tok := chunks (numberText a d)

/-! ### Digits -/

theorem takeWhile_digits {s r : Str} (hs : ∀ c ∈ s, c.isDigit = true) (hr : ∀ c t, r = c :: t → c.isDigit = false) :
    (s ++ r).takeWhile Char.isDigit = s ∧ (s ++ r).dropWhile Char.isDigit = r := by
  induction s with
  | nil =>
    cases r with
    | nil => exact ⟨rfl, rfl⟩
    | cons c t => simp [hr c t rfl]
  | cons c s ih =>
    have := ih fun c h => hs c (by simp [h])
    simp [hs c (by simp), this.1, this.2]

theorem digits_append (s t : Str) : digitsValue (s ++ t) = digitsValue s * 10 ^ t.length + digitsValue t := by
  unfold digitsValue
  rw [Nat.ofDigitChars_append, Nat.ofDigitChars_eq_ofDigitChars_zero, Nat.mul_comm]

theorem value_zeros (n : Nat) : digitsValue (List.replicate n '0') = 0 := by
  unfold digitsValue
  rw [Nat.ofDigitChars_replicate_zero, Nat.mul_zero]

theorem value_toDigits (n : Nat) : digitsValue (Nat.toDigits 10 n) = n := Nat.ofDigitChars_ten_toDigits

theorem toDigits_digit {n : Nat} : ∀ c ∈ Nat.toDigits 10 n, c.isDigit = true := fun _ h => Nat.isDigit_of_mem_toDigits (by omega) (by omega) h

theorem digitChar_ne_zero : ∀ n, n < 10 → 0 < n → n.digitChar ≠ '0' := by decide

theorem toDigits_head {n : Nat} (h : 0 < n) : ∃ c s, Nat.toDigits 10 n = c :: s ∧ c ≠ '0' := by
  induction n using Nat.strongRecOn with
  | _ n ih =>
    by_cases hn : n < 10
    · exact ⟨n.digitChar, [], Nat.toDigits_of_lt_base hn, digitChar_ne_zero n hn h⟩
    · obtain ⟨c, s, h1, h2⟩ := ih (n / 10) (by omega) (by omega)
      exact ⟨c, s ++ [(n % 10).digitChar], by rw [Nat.toDigits_of_base_le (by omega) (by omega), h1]; rfl, h2⟩

theorem stripZeros_append (s : Str) : ∃ z, s = stripZeros s ++ List.replicate z '0' := by
  have : ∀ t : Str, ∃ z, t = List.replicate z '0' ++ t.dropWhile (· = '0') := by
    intro t
    induction t with
    | nil => exact ⟨0, rfl⟩
    | cons c t ih =>
      by_cases hc : c = '0'
      · subst hc
        obtain ⟨z, h⟩ := ih
        exact ⟨z + 1, by rw [List.dropWhile_cons_of_pos (by simp), List.replicate_succ, List.cons_append, ← h]⟩
      · exact ⟨0, by rw [List.dropWhile_cons_of_neg (by simpa using hc)]; rfl⟩
  obtain ⟨z, h⟩ := this s.reverse
  refine ⟨z, ?_⟩
  have := congrArg List.reverse h
  rw [List.reverse_reverse, List.reverse_append, List.reverse_replicate] at this
  exact this

theorem tenPower_eq {k : Nat} (hk : k < 1200) : tenPower (10 ^ k) = k := by
  unfold tenPower
  generalize hn : (1200 : Nat) = n at hk ⊢
  cases h : (List.range n).find? fun i => decide (10 ^ i = 10 ^ k) with
  | none =>
    have := List.find?_eq_none.1 h k (List.mem_range.2 hk)
    simp at this
  | some i =>
    have h1 : decide (10 ^ i = 10 ^ k) = true := List.find?_some (p := fun i => decide (10 ^ i = 10 ^ k)) h
    have := of_decide_eq_true h1
    exact (Nat.pow_right_inj (by omega)).1 this

/-! ### Reading -/

theorem exponent_text (e : Int) : exponent (expText e) = some e := by
  have h1 : ∀ s : Str, s.all Char.isDigit = true → s ≠ [] → s ≠ [] ∧ s.all Char.isDigit = true := fun s h1 h2 => ⟨h2, h1⟩
  have hd : (if e.natAbs < 10 then '0' :: Nat.toDigits 10 e.natAbs else Nat.toDigits 10 e.natAbs) ≠ [] ∧
      (if e.natAbs < 10 then '0' :: Nat.toDigits 10 e.natAbs else Nat.toDigits 10 e.natAbs).all Char.isDigit = true ∧
      digitsValue (if e.natAbs < 10 then '0' :: Nat.toDigits 10 e.natAbs else Nat.toDigits 10 e.natAbs) = e.natAbs := by
    by_cases h : e.natAbs < 10
    · rw [if_pos h]
      refine ⟨by simp, List.all_eq_true.2 fun c hc => ?_, ?_⟩
      · rcases List.mem_cons.1 hc with rfl | hc
        · rfl
        · exact toDigits_digit c hc
      · rw [show ('0' :: Nat.toDigits 10 e.natAbs) = ['0'] ++ Nat.toDigits 10 e.natAbs from rfl, digits_append, value_toDigits]
        show 0 * _ + _ = _
        omega
    · rw [if_neg h]
      exact ⟨Nat.toDigits_ne_nil, List.all_eq_true.2 toDigits_digit, value_toDigits _⟩
  unfold expText
  generalize (if e.natAbs < 10 then '0' :: Nat.toDigits 10 e.natAbs else Nat.toDigits 10 e.natAbs) = s at hd
  by_cases h : e < 0
  · rw [if_pos h]
    show (if _ then _ else _) = _
    rw [if_pos ⟨hd.1, hd.2.1⟩, hd.2.2]
    congr 1; omega
  · rw [if_neg h]
    show (if _ then _ else _) = _
    rw [if_pos ⟨hd.1, hd.2.1⟩, hd.2.2]
    congr 1; omega

/-- What follows the digits does not begin with one. -/
theorem expText_apart {e : Int} : ∀ c t, expText e = c :: t → c.isDigit = false := by
  intro c t h; cases h; rfl

theorem unsigned_point {i f t : Str} {e : Int} (hi : ∀ c ∈ i, c.isDigit = true) (hn : i ≠ []) (hf : ∀ c ∈ f, c.isDigit = true)
    (ht : ∀ c r, t = c :: r → c.isDigit = false) (he : exponent t = some e) :
    unsigned (i ++ '.' :: (f ++ t)) = some (decimal (digitsValue (i ++ f)) (e - f.length)) := by
  obtain ⟨a1, a2⟩ := takeWhile_digits (s := i) (r := '.' :: (f ++ t)) hi (fun c r h => by cases h; rfl)
  obtain ⟨b1, b2⟩ := takeWhile_digits (s := f) (r := t) hf ht
  unfold unsigned
  rw [a1, a2]
  dsimp only
  rw [if_neg hn]
  show (exponent ((f ++ t).dropWhile Char.isDigit)).map (fun e =>
    decimal (digitsValue (i ++ (f ++ t).takeWhile Char.isDigit)) (e - ((f ++ t).takeWhile Char.isDigit).length)) = _
  rw [b1, b2, he]; rfl

theorem unsigned_exp {i : Str} {e : Int} (hi : ∀ c ∈ i, c.isDigit = true) (hn : i ≠ []) :
    unsigned (i ++ expText e) = some (decimal (digitsValue i) e) := by
  obtain ⟨a1, a2⟩ := takeWhile_digits (s := i) (r := expText e) hi expText_apart
  have he := exponent_text e
  unfold unsigned
  rw [a1, a2]
  unfold expText at he ⊢
  dsimp only
  rw [if_neg hn]
  refine Eq.trans (b := (exponent ('e' :: (if e < 0 then '-' else '+') ::
    (if e.natAbs < 10 then '0' :: Nat.toDigits 10 e.natAbs else Nat.toDigits 10 e.natAbs))).map fun e => decimal (digitsValue i) e) rfl ?_
  rw [he]; rfl

theorem unsigned_int {i : Str} (hi : ∀ c ∈ i, c.isDigit = true) (hn : i ≠ []) (h0 : ∀ c s, i = c :: s → c ≠ '0' ∨ s = []) :
    unsigned i = some (decimal (digitsValue i) 0) := by
  obtain ⟨a1, a2⟩ := takeWhile_digits (s := i) (r := []) hi (fun c r h => by cases h)
  rw [List.append_nil] at a1 a2
  unfold unsigned
  rw [a1, a2]
  dsimp only
  rw [if_neg hn, if_neg]
  rintro ⟨h1, h2⟩
  cases i with
  | nil => exact hn rfl
  | cons c s =>
    rcases h0 c s rfl with h | rfl
    · exact h (Option.some.inj h1)
    · exact absurd h2 (by simp)

/-! ### The formats -/

theorem fmtE_reads {c : Char} {D : Str} (hD : ∀ x ∈ c :: D, x.isDigit = true) (dp : Int) :
    unsigned (fmtE (c :: D) dp) = some (decimal (digitsValue (c :: D)) (dp - (c :: D).length)) := by
  unfold fmtE
  show unsigned ([c] ++ (fracText D ++ _)) = _
  unfold fracText
  by_cases h : D = []
  · subst h
    rw [if_pos rfl, List.nil_append, unsigned_exp (fun x hx => hD x (by simpa using hx)) (by simp)]
    rfl
  · rw [if_neg h]
    show unsigned ([c] ++ '.' :: (D ++ expText (dp - 1))) = _
    rw [unsigned_point (fun x hx => hD x (by rw [List.mem_singleton] at hx; simp [hx])) (by simp) (fun x hx => hD x (by simp [hx])) expText_apart
      (exponent_text _)]
    congr 2
    rw [List.length_cons]; omega

theorem fmtF_reads {D : Str} (hD : ∀ x ∈ D, x.isDigit = true) (h0 : ∀ c s, D = c :: s → c ≠ '0') {dp : Int} (hd : 0 < dp → D ≠ []) :
    unsigned (fmtF D dp) = some (decimal (digitsValue D) (dp - D.length)) ∨
    (D.length < dp ∧ unsigned (fmtF D dp) = some (decimal (digitsValue D * 10 ^ (dp.toNat - D.length)) 0)) := by
  unfold fmtF
  by_cases h : 0 < dp
  · rw [if_pos h]
    by_cases hl : D.length < dp
    · have e1 : D.take dp.toNat = D := List.take_of_length_le (by omega)
      have e2 : D.drop dp.toNat = [] := List.drop_of_length_le (by omega)
      refine .inr ⟨hl, ?_⟩
      rw [e1, e2]
      show unsigned (_ ++ []) = _
      rw [List.append_nil, unsigned_int, digits_append, value_zeros, List.length_replicate, Nat.add_zero]
      · intro x hx
        rcases List.mem_append.1 hx with hx | hx
        · exact hD x hx
        · rw [(List.mem_replicate.1 hx).2]; rfl
      · intro e; exact hd h (List.append_eq_nil_iff.1 e).1
      · intro c s e
        cases D with
        | nil => exact (hd h rfl).elim
        | cons c' s' => cases e; exact .inl (h0 _ _ rfl)
    · refine .inl ?_
      rw [show dp.toNat - D.length = 0 by omega]
      show unsigned (List.take dp.toNat D ++ [] ++ _) = _
      rw [List.append_nil]
      unfold fracText
      have hne : List.take dp.toNat D ≠ [] := by
        intro e
        cases D with
        | nil => exact hd h rfl
        | cons c s => rw [show dp.toNat = dp.toNat - 1 + 1 by omega] at e; cases e
      by_cases he : D.drop dp.toNat = []
      · have : D.length ≤ dp.toNat := List.drop_eq_nil_iff.1 he
        rw [if_pos he, List.append_nil, List.take_of_length_le this, unsigned_int hD (hd h) (fun c s e => .inl (h0 c s e))]
        congr 2; omega
      · rw [if_neg he]
        have := unsigned_point (i := D.take dp.toNat) (f := D.drop dp.toNat) (t := []) (e := 0) (fun x hx => hD x (List.mem_of_mem_take hx)) hne
          (fun x hx => hD x (List.mem_of_mem_drop hx)) (fun c r h => by cases h) rfl
        rw [List.append_nil] at this
        rw [this, List.take_append_drop, List.length_drop]
        congr 2; omega
  · rw [if_neg h]
    refine .inl ?_
    have hx : ∀ x ∈ List.replicate (-dp).toNat '0' ++ D, x.isDigit = true := by
      intro x hx
      rcases List.mem_append.1 hx with hx | hx
      · rw [(List.mem_replicate.1 hx).2]; rfl
      · exact hD x hx
    have hv : digitsValue (List.replicate (-dp).toNat '0' ++ D) = digitsValue D := by rw [digits_append, value_zeros]; omega
    unfold fracText
    by_cases he : List.replicate (-dp).toNat '0' ++ D = []
    · rw [if_pos he]
      obtain ⟨h1, rfl⟩ := List.append_eq_nil_iff.1 he
      have : (-dp).toNat = 0 := by have := congrArg List.length h1; simpa using this
      have : dp = 0 := by omega
      subst this
      decide
    · rw [if_neg he]
      have := unsigned_point (i := ['0']) (t := []) (e := 0) (by simp) (by simp) hx (fun c r h => by cases h) rfl
      rw [List.append_nil] at this
      show unsigned (['0'] ++ '.' :: _) = _
      rw [this, digits_append, hv, List.length_append, List.length_replicate]
      show some (decimal (0 * _ + _) _) = _
      congr 2 <;> omega

theorem same_decimal {m c z k : Nat} (h : m * 10 ^ z = c) : (decimal m (z - k)).1 * 10 ^ k = c * (decimal m (z - k)).2 ∧ 0 < (decimal m (z - k)).2 := by
  unfold decimal
  by_cases hk : (0 : Int) ≤ z - k
  · rw [if_pos hk]
    refine ⟨?_, Nat.one_pos⟩
    dsimp only
    rw [Nat.mul_assoc, ← Nat.pow_add, show ((z : Int) - k).toNat + k = z by omega, h, Nat.mul_one]
  · rw [if_neg hk]
    refine ⟨?_, Nat.pow_pos (by omega)⟩
    dsimp only
    rw [← h, Nat.mul_assoc, ← Nat.pow_add, show z + (-((z : Int) - k)).toNat = k by omega]

/-- The text of a decimal fraction is a constant of that number. -/
theorem fmtG_reads {c k : Nat} (hk : k < 1200) : ∃ x, unsigned (fmtG (decimalSlice c (10 ^ k)).1 (decimalSlice c (10 ^ k)).2) = some x ∧
    x.1 * 10 ^ k = c * x.2 ∧ 0 < x.2 := by
  unfold decimalSlice
  by_cases hc : c = 0
  · subst hc
    rw [if_pos rfl]
    exact ⟨(0, 1), by decide, by simp, Nat.one_pos⟩
  · rw [if_neg hc, tenPower_eq hk]
    dsimp only
    obtain ⟨z, hz⟩ := stripZeros_append (Nat.toDigits 10 c)
    obtain ⟨d, s, hs, hd⟩ := toDigits_head (n := c) (by omega)
    generalize stripZeros (Nat.toDigits 10 c) = D at hz
    have hl : (Nat.toDigits 10 c).length = D.length + z := by rw [hz, List.length_append, List.length_replicate]
    have hv : digitsValue D * 10 ^ z = c := by
      have := value_toDigits c
      rw [hz, digits_append, value_zeros, List.length_replicate] at this
      omega
    have hD : ∀ x ∈ D, x.isDigit = true := fun x hx => toDigits_digit (n := c) x (by rw [hz]; simp [hx])
    have hne : D ≠ [] := by
      rintro rfl
      have : (0 : Nat) * 10 ^ z = c := hv
      omega
    have h0 : ∀ x s, D = x :: s → x ≠ '0' := by
      rintro x s' rfl
      rw [hs] at hz
      cases hz
      exact hd
    rw [hl]
    have hs' := same_decimal (k := k) hv
    have e1 : ((D.length + z : Nat) : Int) - k - D.length = z - k := by omega
    unfold fmtG
    by_cases hg : ((D.length + z : Nat) : Int) - k - 1 < -4 ∨ 6 ≤ ((D.length + z : Nat) : Int) - k - 1
    · rw [if_pos hg]
      cases D with
      | nil => exact (hne rfl).elim
      | cons x D => exact ⟨_, by rw [fmtE_reads hD, e1], hs'⟩
    · rw [if_neg hg]
      rcases fmtF_reads hD h0 (dp := ((D.length + z : Nat) : Int) - k) (fun _ => hne) with h | ⟨h1, h⟩
      · exact ⟨_, by rw [h, e1], hs'⟩
      · refine ⟨_, h, ?_⟩
        have : ((((D.length + z : Nat) : Int) - k).toNat - D.length) = z - k := by omega
        rw [this]
        unfold decimal
        rw [if_pos (Int.le_refl 0)]
        refine ⟨?_, Nat.one_pos⟩
        dsimp only
        rw [show (0 : Int).toNat = 0 from rfl, Nat.pow_zero, Nat.mul_one, Nat.mul_one, Nat.mul_assoc, ← Nat.pow_add, show z - k + k = z by omega, hv]

/-! ### Fractions -/

theorem roundTo_scale (F : Fmt) {a d c : Nat} (hc : 0 < c) : roundTo F (a * c) (d * c) = roundTo F a d := by
  unfold roundTo
  have e1 : a * c * 2 ^ F.scale = a * 2 ^ F.scale * c := by rw [Nat.mul_assoc, Nat.mul_comm c, ← Nat.mul_assoc]
  dsimp only
  rw [e1, Nat.mul_div_mul_right _ _ hc]
  generalize a * 2 ^ F.scale = x
  generalize (x / d).log2 - F.p = s
  have e2 : d * c * 2 ^ s = d * 2 ^ s * c := by rw [Nat.mul_assoc, Nat.mul_comm c, ← Nat.mul_assoc]
  rw [e2, Nat.mul_div_mul_right _ _ hc, Nat.mul_mod_mul_right]
  generalize d * 2 ^ s = u
  generalize x % u = r
  have e3 : u * c < 2 * (r * c) ↔ u < 2 * r := by rw [← Nat.mul_assoc]; exact Nat.mul_lt_mul_right hc
  have e4 : 2 * (r * c) = u * c ↔ 2 * r = u := by rw [← Nat.mul_assoc]; exact Nat.mul_left_inj (Nat.pos_iff_ne_zero.1 hc)
  simp only [e3, e4]

theorem roundTo_same (F : Fmt) {a d a' d' : Nat} (hd : 0 < d) (hd' : 0 < d') (h : a * d' = a' * d) : roundTo F a d = roundTo F a' d' := by
  rw [← roundTo_scale F hd', h, Nat.mul_comm d, roundTo_scale F hd]

theorem same_parts {x y : Int × Nat} (h : Same x y) : x.1.natAbs * y.2 = y.1.natAbs * x.2 ∧ (x.1 < 0 ↔ y.1 < 0) := by
  obtain ⟨h1, h2, h3⟩ := h
  refine ⟨?_, ?_⟩
  · have := congrArg Int.natAbs h3
    rwa [Int.natAbs_mul, Int.natAbs_mul, Int.natAbs_natCast, Int.natAbs_natCast] at this
  · have a1 : (0 : Int) < y.2 := by omega
    have a2 : (0 : Int) < x.2 := by omega
    constructor
    · intro hx
      have := Int.mul_neg_of_neg_of_pos hx a1
      rw [h3] at this
      exact Int.not_le.1 fun h => absurd (Int.mul_nonneg h (Int.le_of_lt a2)) (Int.not_le.2 this)
    · intro hy
      have := Int.mul_neg_of_neg_of_pos hy a2
      rw [← h3] at this
      exact Int.not_le.1 fun h => absurd (Int.mul_nonneg h (Int.le_of_lt a1)) (Int.not_le.2 this)

/-- Constants of the same number are the same floats. -/
theorem constFloat_same (F : Fmt) {x y : Int × Nat} (h : Same x y) : constFloat F x.1 x.2 = constFloat F y.1 y.2 := by
  obtain ⟨h1, h2⟩ := same_parts h
  unfold constFloat
  rw [roundTo_same F h.1 h.2.1 h1]
  simp only [h2]

/-- Constants of the same number are the same integers. -/
theorem constInt_same (w : Nat) {x y : Int × Nat} (h : Same x y) : constInt w x.1 x.2 = constInt w y.1 y.2 := by
  obtain ⟨h1, h2, h3⟩ := h
  have hx : (x.2 : Int) ≠ 0 := by omega
  have hy : (y.2 : Int) ≠ 0 := by omega
  have e : x.1 / x.2 = y.1 / y.2 := by
    rw [← Int.mul_ediv_mul_of_pos_left x.1 (x.2 : Int) (show (0 : Int) < y.2 by omega), h3, Int.mul_comm (x.2 : Int),
      Int.mul_ediv_mul_of_pos_left y.1 (y.2 : Int) (show (0 : Int) < x.2 by omega)]
  have e' : x.1 % x.2 = 0 ↔ y.1 % y.2 = 0 := by
    have a1 := Int.mul_ediv_add_emod x.1 x.2
    have a2 := Int.mul_ediv_add_emod y.1 y.2
    rw [e] at a1
    generalize y.1 / y.2 = q at a1 a2
    generalize x.1 % x.2 = r at *
    generalize y.1 % y.2 = r' at *
    rw [← a1, ← a2, Int.add_mul, Int.add_mul] at h3
    have : r * y.2 = r' * x.2 := by
      have c1 : (x.2 : Int) * q * y.2 = y.2 * q * x.2 := by rw [Int.mul_right_comm, Int.mul_comm (x.2 : Int), Int.mul_right_comm]
      omega
    constructor
    · rintro rfl
      rw [Int.zero_mul] at this
      exact (Int.mul_eq_zero.1 this.symm).resolve_right hx
    · rintro rfl
      rw [Int.zero_mul] at this
      exact (Int.mul_eq_zero.1 this).resolve_right hy
  unfold constInt
  simp only [e, e']

/-! ### The text of a JSON number -/

theorem shortest_decimal {F : Fmt} {a d c k : Nat} (hm : (c, 10 ^ k) ∈ decimals a d) (h : roundTo F c (10 ^ k) = roundTo F a d) :
    ∃ k, k < 1200 ∧ (shortest F a d).2 = 10 ^ k := by
  unfold shortest
  cases hf : (decimals a d).find? fun c => decide (roundTo F c.1 c.2 = roundTo F a d) with
  | none =>
    have := List.find?_eq_none.1 hf _ hm
    exact (this (decide_eq_true h)).elim
  | some x =>
    have hx := List.mem_of_find?_eq_some hf
    show ∃ k, k < 1200 ∧ x.2 = 10 ^ k
    unfold decimals at hx
    rw [List.mem_append, List.mem_flatMap, List.mem_flatMap] at hx
    rcases hx with ⟨k, _, h⟩ | ⟨k, hk, h⟩
    · obtain ⟨m, _, rfl⟩ := List.mem_map.1 h
      exact ⟨0, by omega, rfl⟩
    · obtain ⟨m, _, rfl⟩ := List.mem_map.1 h
      rw [List.mem_range] at hk
      exact ⟨k + 1, by omega, rfl⟩

/-- A JSON number is printed as a decimal fraction. -/
theorem number_decimal {j : Json} {a : Int} {d : Nat} (h : j.number = some (a, d)) : 0 < d ∧ ∃ k, k < 1200 ∧ (literal a d).2 = 10 ^ k := by
  have key : ∀ a : Nat, (d = 1 ∨ d = 2 ^ double.scale) → ∃ k, k < 1200 ∧ (shortest double a d).2 = 10 ^ k := by
    intro a hd
    rcases hd with hd | hd
    · rw [hd]
      refine shortest_decimal (c := a) (k := 0) ?_ rfl
      unfold decimals
      refine List.mem_append.2 (.inl (List.mem_flatMap.2 ⟨0, ?_, ?_⟩))
      · rw [List.mem_reverse, List.mem_range]; omega
      · refine List.mem_map.2 ⟨a, ?_, by simp⟩
        unfold nextTo; simp
    · rw [hd]
      have hs : (2 : Nat) ^ double.scale * 5 ^ double.scale = 10 ^ double.scale := by rw [← Nat.mul_pow]
      refine shortest_decimal (c := a * 5 ^ double.scale) (k := double.scale) ?_ ?_
      · unfold decimals
        refine List.mem_append.2 (.inr (List.mem_flatMap.2 ⟨double.scale - 1, ?_, ?_⟩))
        · rw [List.mem_range]; decide
        · refine List.mem_map.2 ⟨a * 5 ^ double.scale, ?_, ?_⟩
          · have e : double.scale - 1 + 1 = double.scale := by decide
            unfold nextTo
            rw [e, ← hs, ← Nat.mul_assoc, Nat.mul_right_comm, Nat.mul_div_cancel _ (Nat.two_pow_pos _)]
            simp
          · have e : double.scale - 1 + 1 = double.scale := by decide
            rw [e]
      · rw [← hs]
        exact roundTo_scale double (Nat.pow_pos (by omega))
  have hd : d = 1 ∨ d = 2 ^ double.scale := by
    cases j with
    | num z => cases h; exact .inl rfl
    | real b =>
      simp only [Json.number] at h
      generalize 2 ^ double.scale = u at h
      by_cases hb : double.low b / 2 ^ double.p < 2 ^ double.k - 1
      · rw [if_pos hb] at h
        injection h with h
        injection h with h1 h2
        exact .inr h2.symm
      · rw [if_neg hb] at h; cases h
    | _ => cases h
  refine ⟨?_, ?_⟩
  · rcases hd with hd | hd
    · rw [hd]; exact Nat.one_pos
    · rw [hd]; exact Nat.two_pow_pos _
  · rw [literal_eq]
    exact key a.natAbs hd

/-- The text of a JSON number is a constant of the number that Go/Literal says. -/
theorem numberText_reads {j : Json} {a : Int} {d : Nat} (h : j.number = some (a, d)) :
    ∃ x, constantValue (numberText a d) = some x ∧ Same x (literal a d) := by
  obtain ⟨hd, k, hk, h1⟩ := number_decimal h
  unfold numberText
  generalize literal a d = y at h1
  obtain ⟨p, q⟩ := y
  dsimp only at h1
  subst h1
  obtain ⟨x, h2, h3, h4⟩ := fmtG_reads (c := p.natAbs) hk
  dsimp only
  have hq : 0 < 10 ^ k := Nat.pow_pos (by omega)
  have h3' : (x.1 : Int) * (10 ^ k : Nat) = p.natAbs * (x.2 : Int) := by exact_mod_cast h3
  by_cases hp : p < 0
  · rw [if_pos hp]
    refine ⟨(-(x.1 : Int), x.2), ?_, h4, hq, ?_⟩
    · rw [List.singleton_append]
      show (unsigned _).map _ = _
      rw [h2]; rfl
    · dsimp only
      rw [Int.neg_mul, h3']
      have : (p.natAbs : Int) = -p := by omega
      rw [this, Int.neg_mul, Int.neg_neg]
  · rw [if_neg hp, List.nil_append]
    refine ⟨((x.1 : Int), x.2), ?_, h4, hq, ?_⟩
    · unfold constantValue
      split
      · rename_i e
        rw [e] at h2
        have : ∀ s, unsigned ('-' :: s) = none := fun s => rfl
        rw [this] at h2; cases h2
      · rw [h2]; rfl
    · dsimp only
      rw [h3']
      have : (p.natAbs : Int) = p := by omega
      rw [this]

theorem chunks_chars (s : Str) : (chunks s).flatMap Tok.chars = s := by
  induction s with
  | nil => rfl
  | cons c s ih =>
    unfold chunks
    by_cases h : wordChar c = true
    · rw [if_pos h]
      split
      · rename_i x ts e
        rw [e] at ih
        rw [← ih]; rfl
      · rw [List.flatMap_cons, ih]; rfl
    · rw [if_neg h, List.flatMap_cons, ih]; rfl

/-- And so are its tokens. -/
theorem numberToks_read {j : Json} {a : Int} {d : Nat} (h : j.number = some (a, d)) :
    ∃ x, readNumber (numberToks a d) = some x ∧ Same x (literal a d) := by
  unfold readNumber numberToks
  rw [chunks_chars]
  exact numberText_reads h

example : numberText (-7) 1 = "-7".toList := by decide +kernel
example : numberText (2 ^ 56) 1 = "7.205759403792794e+16".toList := by decide +kernel
example : numberText 1000000 1 = "1e+06".toList := by decide +kernel
example : numberText 123456 1 = "123456".toList := by decide +kernel
/-- 0.1 -/
example : numberText (double.scaled 0x3FB999999999999A) (2 ^ double.scale) = "0.1".toList := by decide +kernel
/-- 0.00001 -/
example : numberText (double.scaled 0x3EE4F8B588E368F1) (2 ^ double.scale) = "1e-05".toList := by decide +kernel

end Verif
