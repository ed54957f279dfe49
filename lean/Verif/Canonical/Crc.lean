import Verif.Wire.Basic
import Verif.Spec.Crc
/-
CRC-64-AVRO fingerprints, v10/schema/canonical/crc.go.
-/
namespace Verif.Crc
open Verif

/-- `EMPTY`, v10/schema/canonical/crc.go:10. -/
def EMPTY : BitVec 64 := 0xc15d213aa4d7a795#64

/-- `fp = (fp >> 1) ^ (EMPTY & -(fp & 1))`, crc.go:17. -/
def fpStep (fp : BitVec 64) : BitVec 64 := (fp >>> 1) ^^^ (EMPTY &&& -(fp &&& 1))

/-- The loop `for j := 0; j < 8; j++`, crc.go:16-18. -/
def fpEntry (i : Nat) : BitVec 64 := (List.range 8).foldl (fun fp _ => fpStep fp) (BitVec.ofNat 64 i)

/-- `FP_TABLE` as filled by `init`, crc.go:8,12-21. -/
def FP_TABLE : List (BitVec 64) := (List.range 256).map fpEntry

/-- One round of the loop in `AvroCRC64Fingerprint`, crc.go:26. The index is at most 255, so
the slice access never panics; `getD` never uses its default. -/
def fpByte (fp : BitVec 64) (d : Byte) : BitVec 64 :=
  (fp >>> 8) ^^^ FP_TABLE.getD ((fp ^^^ d.setWidth 64) &&& 0xff#64).toNat 0

/-- `binary.Write(output, binary.LittleEndian, fp)`, crc.go:28-33 (writing to a
`bytes.Buffer` does not fail). -/
def le64 (fp : BitVec 64) : List Byte := (List.range 8).map fun i => (fp >>> (8 * i)).setWidth 8

/-- `AvroCRC64Fingerprint`, crc.go:23-34. -/
def avroCRC64Fingerprint (data : List Byte) : List Byte := le64 (data.foldl fpByte EMPTY)

/-! ### Bit level -/

theorem fpStep_bit (fp : BitVec 64) (i : Nat) :
    (fpStep fp).getLsbD i = ((fp >>> 1).getLsbD i ^^ (fp.getLsbD 0 && EMPTY.getLsbD i)) := by
  have h : -(fp &&& 1#64) = if fp.getLsbD 0 then BitVec.allOnes 64 else 0#64 := by
    have h1 : fp &&& 1#64 = if fp.getLsbD 0 then 1#64 else 0#64 := by
      apply BitVec.eq_of_getLsbD_eq
      intro j hj
      by_cases h0 : j = 0
      · subst h0; by_cases hf : fp.getLsbD 0 = true <;> simp_all
      · have : (1#64).getLsbD j = false := by simp [BitVec.getLsbD_one, h0]
        by_cases hf : fp.getLsbD 0 = true <;> simp_all
    rw [h1]
    cases fp.getLsbD 0
    · decide
    · decide
  unfold fpStep
  rw [BitVec.getLsbD_xor, BitVec.getLsbD_and, show (1 : BitVec 64) = 1#64 from rfl, h]
  cases fp.getLsbD 0
  · simp only [Bool.false_and, Bool.false_eq_true, if_false, BitVec.getLsbD_zero, Bool.and_false]
  · by_cases hi : i < 64
    · rw [if_pos rfl, BitVec.getLsbD_allOnes, decide_eq_true hi, Bool.and_true, Bool.true_and]
    · rw [if_pos rfl, BitVec.getLsbD_of_ge EMPTY _ (by omega), Bool.false_and, Bool.and_false]

theorem fpStep_xor (a b : BitVec 64) : fpStep (a ^^^ b) = fpStep a ^^^ fpStep b := by
  apply BitVec.eq_of_getLsbD_eq
  intro i hi
  simp only [BitVec.getLsbD_xor, fpStep_bit, BitVec.getLsbD_ushiftRight]
  cases a.getLsbD (1 + i) <;> cases b.getLsbD (1 + i) <;> cases a.getLsbD 0 <;> cases b.getLsbD 0 <;>
    cases EMPTY.getLsbD i <;> rfl

/-- `n` steps. -/
def steps : Nat → BitVec 64 → BitVec 64
  | 0, fp => fp
  | n + 1, fp => steps n (fpStep fp)

theorem steps_add (m n : Nat) (fp : BitVec 64) : steps (m + n) fp = steps n (steps m fp) := by
  induction m generalizing fp with
  | zero => simp [steps]
  | succ m ih => rw [Nat.succ_add]; exact ih _

theorem steps_xor (n : Nat) (a b : BitVec 64) : steps n (a ^^^ b) = steps n a ^^^ steps n b := by
  induction n generalizing a b with
  | zero => rfl
  | succ n ih => simp only [steps, fpStep_xor, ih]

theorem fpEntry_eq (i : Nat) : fpEntry i = steps 8 (BitVec.ofNat 64 i) := rfl

/-- A register whose low bits are zero is just shifted. -/
theorem steps_shift (n : Nat) (fp : BitVec 64) (h : ∀ i < n, fp.getLsbD i = false) :
    steps n fp = fp >>> n := by
  induction n generalizing fp with
  | zero => simp [steps]
  | succ n ih =>
    have h1 : fpStep fp = fp >>> 1 := by
      apply BitVec.eq_of_getLsbD_eq
      intro i hi
      rw [fpStep_bit, h 0 (by omega)]; simp
    rw [steps, h1, ih]
    · apply BitVec.eq_of_getLsbD_eq
      intro i hi
      simp only [BitVec.getLsbD_ushiftRight]
      congr 1; omega
    · intro i hi
      rw [BitVec.getLsbD_ushiftRight]; exact h _ (by omega)

theorem fpByte_eq (fp : BitVec 64) (d : Byte) : fpByte fp d = steps 8 (fp ^^^ d.setWidth 64) := by
  unfold fpByte
  generalize hx : fp ^^^ d.setWidth 64 = x
  have hlow : (x &&& 0xff#64).toNat < 256 := by
    rw [BitVec.toNat_and]
    exact Nat.lt_of_le_of_lt Nat.and_le_right (by decide)
  rw [FP_TABLE, List.getD_eq_getElem?_getD, List.getElem?_map, List.getElem?_range hlow]
  simp only [Option.map_some, Option.getD_some, fpEntry_eq, BitVec.ofNat_toNat, BitVec.setWidth_eq]
  have hff : ∀ i, i < 64 → (0xff#64).getLsbD i = decide (i < 8) := by decide
  have hsplit : x = (x &&& ~~~0xff#64) ^^^ (x &&& 0xff#64) := by
    apply BitVec.eq_of_getLsbD_eq
    intro i hi
    simp only [BitVec.getLsbD_xor, BitVec.getLsbD_and, BitVec.getLsbD_not, hff i hi]
    cases x.getLsbD i <;> cases decide (i < 8) <;> simp [hi]
  conv => rhs; rw [hsplit, steps_xor]
  congr 1
  rw [steps_shift]
  · apply BitVec.eq_of_getLsbD_eq
    intro i hi
    rw [BitVec.getLsbD_ushiftRight, BitVec.getLsbD_ushiftRight, ← hx, BitVec.getLsbD_and, BitVec.getLsbD_xor,
      BitVec.getLsbD_not]
    by_cases h64 : 8 + i < 64
    · rw [hff _ h64]
      have : (BitVec.setWidth 64 d).getLsbD (8 + i) = false := by
        rw [BitVec.getLsbD_setWidth, BitVec.getLsbD_of_ge _ _ (by omega)]; simp
      simp [this, h64]
    · rw [BitVec.getLsbD_of_ge fp _ (by omega), BitVec.getLsbD_of_ge (BitVec.setWidth 64 d) _ (by omega)]; simp
  · intro i hi
    simp only [BitVec.getLsbD_and, BitVec.getLsbD_not, hff i (by omega)]
    simp [hi]

/-! ### Agreement with the bit-by-bit definition -/

theorem crcBit_eq (fp : BitVec 64) (b : Bool) :
    Spec.crcBit fp b = fpStep (fp ^^^ if b then 1#64 else 0#64) := by
  apply BitVec.eq_of_getLsbD_eq
  intro i hi
  rw [fpStep_xor, BitVec.getLsbD_xor, fpStep_bit, fpStep_bit]
  have h1 : ∀ i, (1#64 >>> 1).getLsbD i = false := by
    intro i; rw [show (1#64 >>> 1) = 0#64 by decide]; simp
  unfold Spec.crcBit
  have : Spec.crcEmpty = EMPTY := rfl
  cases b <;> cases hf : fp.getLsbD 0 <;> simp [this, h1]

/-- The bits of a byte, as a register. -/
theorem byte_bits (fp : BitVec 64) (d : Byte) :
    (Spec.crcBits d).foldl Spec.crcBit fp = steps 8 (fp ^^^ d.setWidth 64) := by
  have key : ∀ n k, n + k = 8 → ∀ fp : BitVec 64,
      ((List.range' k n).map d.getLsbD).foldl Spec.crcBit fp
        = steps n (fp ^^^ (d >>> k).setWidth 64) := by
    intro n
    induction n with
    | zero =>
      intro k hk fp
      have : d >>> k = 0#8 := by
        apply BitVec.eq_of_getLsbD_eq
        intro i hi
        rw [BitVec.getLsbD_ushiftRight, BitVec.getLsbD_of_ge _ _ (by omega)]; simp
      simp [this, steps]
    | succ n ih =>
      intro k hk fp
      rw [List.range'_succ, List.map_cons, List.foldl_cons, ih (k + 1) (by omega), steps, crcBit_eq]
      congr 1
      have hs : (d >>> k).setWidth 64
          = (if d.getLsbD k then 1#64 else 0#64) ^^^ ((d >>> (k + 1)).setWidth 64 <<< 1) := by
        apply BitVec.eq_of_getLsbD_eq
        intro i hi
        rw [BitVec.getLsbD_xor, BitVec.getLsbD_setWidth, BitVec.getLsbD_shiftLeft, BitVec.getLsbD_setWidth,
          BitVec.getLsbD_ushiftRight, BitVec.getLsbD_ushiftRight]
        by_cases h0 : i = 0
        · subst h0; cases d.getLsbD k <;> simp
        · have h2 : (if d.getLsbD k = true then 1#64 else 0#64).getLsbD i = false := by
            cases d.getLsbD k <;> simp [BitVec.getLsbD_one, h0]
          rw [h2, show k + 1 + (i - 1) = k + i by omega]
          simp [hi, h0]; omega
      rw [hs, ← BitVec.xor_assoc, fpStep_xor (fp ^^^ _)]
      congr 1
      apply BitVec.eq_of_getLsbD_eq
      intro i hi
      rw [fpStep_bit, BitVec.getLsbD_ushiftRight, BitVec.getLsbD_shiftLeft, BitVec.getLsbD_shiftLeft]
      simp only [BitVec.getLsbD_setWidth, BitVec.getLsbD_ushiftRight]
      by_cases h63 : 1 + i < 64
      · simp [hi, h63]
      · rw [BitVec.getLsbD_of_ge d _ (by omega)]; simp; intro h; omega
  have := key 8 0 rfl fp
  rw [Spec.crcBits, List.range_eq_range', this]
  simp

theorem fold_eq (data : List Byte) (fp : BitVec 64) :
    data.foldl fpByte fp = (data.flatMap Spec.crcBits).foldl Spec.crcBit fp := by
  induction data generalizing fp with
  | nil => rfl
  | cons d ds ih =>
    rw [List.foldl_cons, List.flatMap_cons, List.foldl_append, byte_bits, ← fpByte_eq, ih]

/-! ### Injectivity -/

/-- Nothing is lost in a step: the top bit of `EMPTY` is set, so the top bit of the result tells
which bit dropped out. -/
theorem fpStep_zero (a : BitVec 64) (h : fpStep a = 0) : a = 0 := by
  have h63 := congrArg (·.getLsbD 63) h
  have hE : EMPTY.getLsbD 63 = true := by decide
  simp only [fpStep_bit, BitVec.getLsbD_ushiftRight, hE, BitVec.getLsbD_of_ge a 64 (by omega)] at h63
  simp at h63
  apply BitVec.eq_of_getLsbD_eq
  intro i hi
  cases i with
  | zero => simpa using h63
  | succ i =>
    have := congrArg (·.getLsbD i) h
    simp only [fpStep_bit, BitVec.getLsbD_ushiftRight] at this
    rw [Nat.add_comm 1 i] at this
    simpa [h63] using this

theorem steps_zero (n : Nat) (a : BitVec 64) (h : steps n a = 0) : a = 0 := by
  induction n generalizing a with
  | zero => exact h
  | succ n ih => exact fpStep_zero a (ih _ h)

theorem xor_eq_zero (a b : BitVec 64) (h : a ^^^ b = 0) : a = b := by
  apply BitVec.eq_of_getLsbD_eq
  intro i hi
  have := congrArg (·.getLsbD i) h
  simp only [BitVec.getLsbD_xor, show (0 : BitVec 64) = 0#64 from rfl, BitVec.getLsbD_zero] at this
  cases ha : a.getLsbD i <;> cases hb : b.getLsbD i <;> simp_all

theorem steps_inj (n : Nat) (a b : BitVec 64) (h : steps n a = steps n b) : a = b := by
  apply xor_eq_zero
  apply steps_zero n
  rw [steps_xor, h]; exact BitVec.xor_self ..

/-- The bytes as one register, first byte lowest. -/
def pack : List Byte → BitVec 64
  | [] => 0
  | d :: ds => d.setWidth 64 ^^^ (pack ds <<< 8)

theorem pack_high (ds : List Byte) (i : Nat) (hi : 8 * ds.length ≤ i) : (pack ds).getLsbD i = false := by
  induction ds generalizing i with
  | nil => simp [pack]
  | cons d ds ih =>
    simp only [List.length_cons] at hi
    rw [pack, BitVec.getLsbD_xor, BitVec.getLsbD_shiftLeft, BitVec.getLsbD_setWidth, ih (i - 8) (by omega),
      BitVec.getLsbD_of_ge d _ (by omega)]
    simp

/-- `8 * n` steps on a register shifted up by 8 are: shift back. -/
theorem steps8_shift (x : BitVec 64) (h : ∀ i, 56 ≤ i → x.getLsbD i = false) : steps 8 (x <<< 8) = x := by
  rw [steps_shift]
  · apply BitVec.eq_of_getLsbD_eq
    intro i hi
    rw [BitVec.getLsbD_ushiftRight, BitVec.getLsbD_shiftLeft]
    by_cases h56 : 56 ≤ i
    · rw [h i h56]; simp; omega
    · simp; omega
  · intro i hi; rw [BitVec.getLsbD_shiftLeft]; simp; omega

/-- Up to eight bytes are just added into the register before the steps. -/
theorem fold_pack (ds : List Byte) (h : ds.length ≤ 8) (fp : BitVec 64) :
    ds.foldl fpByte fp = steps (8 * ds.length) (fp ^^^ pack ds) := by
  induction ds generalizing fp with
  | nil => simp [steps, pack]
  | cons d ds ih =>
    simp only [List.length_cons] at h
    rw [List.foldl_cons, ih (by omega), fpByte_eq, List.length_cons, Nat.mul_add, Nat.mul_one, Nat.add_comm,
      steps_add, pack, ← BitVec.xor_assoc, steps_xor 8 (fp ^^^ _), steps8_shift]
    intro i hi; exact pack_high ds i (by omega)

theorem pack_inj (a b : List Byte) (hl : a.length = b.length) (h8 : a.length ≤ 8) (h : pack a = pack b) :
    a = b := by
  induction a generalizing b with
  | nil => cases b with
    | nil => rfl
    | cons => simp at hl
  | cons x a ih => cases b with
    | nil => simp at hl
    | cons y b =>
      simp only [List.length_cons, Nat.add_right_cancel_iff] at hl h8
      have hx : x = y := by
        apply BitVec.eq_of_getLsbD_eq
        intro i hi
        have := congrArg (·.getLsbD i) h
        simp only [pack, BitVec.getLsbD_xor, BitVec.getLsbD_setWidth, BitVec.getLsbD_shiftLeft] at this
        simpa [hi, show i < 64 by omega] using this
      subst hx
      congr 1
      apply ih b hl (by omega)
      apply BitVec.eq_of_getLsbD_eq
      intro i hi
      by_cases h56 : 56 ≤ i
      · rw [pack_high a i (by omega), pack_high b i (by omega)]
      · have := congrArg (·.getLsbD (i + 8)) h
        simp only [pack, BitVec.getLsbD_xor, BitVec.getLsbD_setWidth, BitVec.getLsbD_shiftLeft,
          BitVec.getLsbD_of_ge x (i + 8) (by omega)] at this
        simpa [show i + 8 < 64 by omega, show ¬ i + 8 < 8 by omega] using this

theorem fpByte_inj (d : Byte) (a b : BitVec 64) (h : fpByte a d = fpByte b d) : a = b := by
  rw [fpByte_eq, fpByte_eq] at h
  have := steps_inj _ _ _ h
  apply xor_eq_zero
  have h2 : a ^^^ b = (a ^^^ d.setWidth 64) ^^^ (b ^^^ d.setWidth 64) := by
    apply BitVec.eq_of_getLsbD_eq
    intro i hi
    simp only [BitVec.getLsbD_xor]
    cases a.getLsbD i <;> cases b.getLsbD i <;> cases (d.setWidth 64).getLsbD i <;> rfl
  rw [h2, this]; exact BitVec.xor_self ..

theorem fold_inj (ds : List Byte) (a b : BitVec 64) (h : ds.foldl fpByte a = ds.foldl fpByte b) : a = b := by
  induction ds generalizing a b with
  | nil => exact h
  | cons d ds ih => exact fpByte_inj d a b (ih _ _ h)

theorem le64_inj (a b : BitVec 64) (h : le64 a = le64 b) : a = b := by
  apply BitVec.eq_of_getLsbD_eq
  intro i hi
  have h1 := congrArg (·[i / 8]?) h
  simp only [le64, List.getElem?_map, List.getElem?_range (show i / 8 < 8 by omega), Option.map_some,
    Option.some.injEq] at h1
  have h2 := congrArg (·.getLsbD (i % 8)) h1
  simp only [BitVec.getLsbD_setWidth, BitVec.getLsbD_ushiftRight] at h2
  rw [show 8 * (i / 8) + i % 8 = i by omega] at h2
  simpa [show i % 8 < 8 by omega] using h2

end Verif.Crc
