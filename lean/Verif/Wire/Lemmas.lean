import Verif.Wire.Reader
import Verif.Wire.Writer
import Verif.Spec.Wire
/-
Helper lemmas on the primitive readers and writers.
-/
namespace Verif

theorem emit_bytes (bw : Bool) (bs : List Byte) : (emit bw bs).flatten = bs := by
  unfold emit
  split
  · induction bs with
    | nil => rfl
    | cons b bs ih => simp [ih]
  · simp

/-- Byte list of a list of numbers below 256. -/
def ofNats (l : List Nat) : List Byte := l.map (BitVec.ofNat 8)

theorem encodeLoop_eq (e : BitVec 64) (h : e ≠ 0) :
    encodeLoop e = ofNats (Spec.varint e.toNat) := by
  induction hn : e.toNat using Nat.strongRecOn generalizing e with
  | ind n ih =>
    subst hn
    rw [encodeLoop, Spec.varint]
    simp only [h, dite_false]
    have hne : e.toNat ≠ 0 := fun h0 => h (BitVec.eq_of_toNat_eq (by simpa using h0))
    have hsh : (e >>> 7).toNat = e.toNat / 128 := by
      simp [BitVec.toNat_ushiftRight, Nat.shiftRight_eq_div_pow]
    have hand : (e &&& 127).toNat = e.toNat % 128 := by
      rw [BitVec.toNat_and]
      show e.toNat &&& 127 = _
      exact Nat.and_two_pow_sub_one_eq_mod e.toNat 7
    by_cases hlt : e.toNat < 128
    · have hz : e >>> 7 = 0 := BitVec.eq_of_toNat_eq (by rw [hsh]; simp; omega)
      have hb : (e &&& 127).setWidth 8 = BitVec.ofNat 8 e.toNat := by
        apply BitVec.eq_of_toNat_eq
        rw [BitVec.toNat_setWidth, hand, BitVec.toNat_ofNat]; omega
      rw [if_pos hlt, hz, if_pos rfl, hb, encodeLoop]
      simp [ofNats]
    · have hz : e >>> 7 ≠ 0 := fun hc => by
        have := congrArg BitVec.toNat hc
        rw [hsh] at this; simp at this; omega
      rw [if_neg hz, if_neg hlt, ih (e >>> 7).toNat (by rw [hsh]; omega) _ hz rfl, hsh]
      simp only [ofNats, List.map_cons, List.cons.injEq, and_true]
      apply BitVec.eq_of_toNat_eq
      rw [BitVec.toNat_or, BitVec.toNat_setWidth, hand, BitVec.toNat_ofNat]
      have h1 : e.toNat % 128 % 2 ^ 8 = e.toNat % 128 := by omega
      rw [h1]
      show e.toNat % 128 ||| 128 = _
      rw [Nat.or_comm, show (128 : Nat) = 2 ^ 7 * 1 by rfl,
        ← Nat.two_pow_add_eq_or_of_lt (by omega : e.toNat % (2 ^ 7 * 1) < 2 ^ 7) 1]
      omega

theorem encodeInt_eq (e : BitVec 64) : encodeInt e = ofNats (Spec.varint e.toNat) := by
  unfold encodeInt
  split
  · rename_i h; subst h; rw [Spec.varint]; rfl
  · rename_i h; exact encodeLoop_eq e h

/-! ### zig-zag -/

theorem allOnes_xor_toNat {w : Nat} (x : BitVec w) :
    (x ^^^ BitVec.allOnes w).toNat = 2 ^ w - 1 - x.toNat := by
  rw [BitVec.xor_allOnes, BitVec.toNat_not]

theorem sshiftRight_top {w : Nat} (hw : 0 < w) (x : BitVec w) :
    x.sshiftRight (w - 1) = if x.toInt < 0 then BitVec.allOnes w else 0 := by
  apply BitVec.eq_of_toInt_eq
  rw [BitVec.toInt_sshiftRight, Int.shiftRight_eq_div_pow]
  have h1 := BitVec.le_toInt (x := x)
  have h2 := BitVec.toInt_lt (x := x)
  have hp : (0 : Int) < ((2 ^ (w - 1) : Nat) : Int) := by
    have := Nat.two_pow_pos (w - 1); omega
  have e1 : (2 : Int) ^ (w - 1) = ((2 ^ (w - 1) : Nat) : Int) := by push_cast; rfl
  rw [e1] at h1 h2
  by_cases hneg : x.toInt < 0
  · rw [if_pos hneg, BitVec.toInt_allOnes, if_pos hw]
    generalize ((2 ^ (w - 1) : Nat) : Int) = P at *
    apply Int.le_antisymm
    · have := Int.ediv_lt_of_lt_mul hp (a := x.toInt) (b := 0) (by omega); omega
    · rw [Int.le_ediv_iff_mul_le hp]; omega
  · rw [if_neg hneg]
    simp only [BitVec.ofNat_eq_ofNat, BitVec.toInt_zero]
    exact Int.ediv_eq_zero_of_lt (by omega) h2

theorem shl1_toNat {w : Nat} (x : BitVec w) : (x <<< 1).toNat = (2 * x.toNat) % 2 ^ w := by
  rw [BitVec.toNat_shiftLeft, Nat.shiftLeft_eq]; congr 1; omega

theorem zz_toNat {w : Nat} (hw : 0 < w) (x : BitVec w) :
    ((x <<< 1) ^^^ (x.sshiftRight (w - 1))).toNat = Spec.zigzag x.toInt := by
  rw [sshiftRight_top hw]
  have hx := x.isLt
  have h2 : 2 ^ w = 2 * 2 ^ (w - 1) := by
    rw [← Nat.pow_succ']; congr 1; omega
  have hti := BitVec.toInt_eq_toNat_cond x
  unfold Spec.zigzag
  by_cases hneg : x.toInt < 0
  · rw [if_pos hneg, if_neg (by omega), allOnes_xor_toNat, shl1_toNat]
    split at hti
    · omega
    · have h3 : 2 * x.toNat % 2 ^ w = 2 * x.toNat - 2 ^ w := by
        rw [Nat.mod_eq_sub_mod (by omega), Nat.mod_eq_of_lt (by omega)]
      rw [h3]
      generalize hP : 2 ^ w = P at *
      omega
  · rw [if_neg hneg, if_pos (by omega)]
    simp only [BitVec.ofNat_eq_ofNat, BitVec.xor_zero]
    rw [shl1_toNat]
    split at hti
    · rw [Nat.mod_eq_of_lt (by omega)]; omega
    · omega

theorem zigzag64_toNat (x : BitVec 64) : (zigzag64 x).toNat = Spec.zigzag x.toInt :=
  zz_toNat (w := 64) (by omega) x

theorem zigzag32_toNat (x : BitVec 32) : (zigzag32 x).toNat = Spec.zigzag x.toInt := by
  unfold zigzag32
  rw [BitVec.toNat_setWidth, Nat.mod_eq_of_lt, zz_toNat (w := 32) (by omega) x]
  have := ((x <<< 1) ^^^ (x.sshiftRight 31)).isLt
  omega

theorem and_one_toNat (v : BitVec 64) : (v &&& 1).toNat = v.toNat % 2 := by
  rw [BitVec.toNat_and]; exact Nat.and_one_is_mod v.toNat

theorem unzigzag64_zigzag64 (x : BitVec 64) : unzigzag64 (zigzag64 x) = x := by
  have hz := zigzag64_toNat x
  generalize hv : zigzag64 x = v at *
  unfold unzigzag64
  apply BitVec.eq_of_toNat_eq
  have hx := x.isLt
  have hti := BitVec.toInt_eq_toNat_cond x
  have h1 := and_one_toNat v
  have hsh : (v >>> 1).toNat = v.toNat / 2 := by
    simp [BitVec.toNat_ushiftRight, Nat.shiftRight_eq_div_pow]
  unfold Spec.zigzag at hz
  by_cases hneg : 0 ≤ x.toInt
  · rw [if_pos hneg] at hz
    have h0 : v &&& 1 = 0 := BitVec.eq_of_toNat_eq (by rw [h1]; simp; omega)
    rw [h0]
    simp only [BitVec.ofNat_eq_ofNat, BitVec.neg_zero, BitVec.xor_zero]
    rw [hsh]; split at hti <;> omega
  · rw [if_neg hneg] at hz
    have h0 : v &&& 1 = 1 := BitVec.eq_of_toNat_eq (by rw [h1]; simp; omega)
    rw [h0, show (-1 : BitVec 64) = BitVec.allOnes 64 by decide, allOnes_xor_toNat, hsh]
    split at hti <;> omega

theorem unzigzag32_zigzag32 (x : BitVec 32) : unzigzag32 (zigzag32 x) = x := by
  have hz := zigzag32_toNat x
  generalize hv : zigzag32 x = v at *
  unfold unzigzag32
  apply BitVec.eq_of_toNat_eq
  have hx := x.isLt
  have hti := BitVec.toInt_eq_toNat_cond x
  have h1 := and_one_toNat v
  unfold Spec.zigzag at hz
  have hsmall : v.toNat < 2 ^ 32 := by split at hz <;> split at hti <;> omega
  have hsr : v.sshiftRight 1 = v >>> 1 := by
    rw [BitVec.sshiftRight_eq_of_msb_false]
    rw [BitVec.msb_eq_false_iff_two_mul_lt]; omega
  have hsh : ((v >>> 1).setWidth 32).toNat = v.toNat / 2 := by
    rw [BitVec.toNat_setWidth]
    simp only [BitVec.toNat_ushiftRight, Nat.shiftRight_eq_div_pow]
    omega
  rw [hsr]
  by_cases hneg : 0 ≤ x.toInt
  · rw [if_pos hneg] at hz
    have h0 : v &&& 1 = 0 := BitVec.eq_of_toNat_eq (by rw [h1]; simp; omega)
    rw [h0]
    have : (-(BitVec.setWidth 32 (0 : BitVec 64))) = 0 := by decide
    rw [this]
    simp only [BitVec.ofNat_eq_ofNat, BitVec.xor_zero]
    rw [hsh]; split at hti <;> omega
  · rw [if_neg hneg] at hz
    have h0 : v &&& 1 = 1 := BitVec.eq_of_toNat_eq (by rw [h1]; simp; omega)
    rw [h0, show (-(BitVec.setWidth 32 (1 : BitVec 64))) = BitVec.allOnes 32 by decide,
      allOnes_xor_toNat, hsh]
    split at hti <;> omega

theorem zigzag32_eq_zigzag64 (x : BitVec 32) : zigzag32 x = zigzag64 (x.signExtend 64) := by
  apply BitVec.eq_of_toNat_eq
  rw [zigzag32_toNat, zigzag64_toNat, BitVec.toInt_signExtend_of_le (by omega)]

/-! ### reading varints from byte lists -/

theorem next_flat_cons (k : Bool) (b : Byte) (r : List Byte) :
    (flatOps k).next (b :: r) = .ok (b, r) := by
  cases k <;> simp [ReaderOps.next, flatOps, flatReadByte, flatReadFull]

theorem next_flat_nil (k : Bool) : (flatOps k).next [] = .error .eof := by
  cases k <;> simp [ReaderOps.next, flatOps, flatReadByte, flatReadFull]

theorem byte_high_iff : ∀ b : BitVec 8, (b &&& 128#8 = 0#8) ↔ b.toNat < 128 := by decide +kernel

theorem or_shl (n s : Nat) :
    (BitVec.ofNat 64 (n % 128)) <<< s ||| (BitVec.ofNat 64 (n / 128)) <<< (s + 7)
      = (BitVec.ofNat 64 n) <<< s := by
  have h : BitVec.ofNat 64 n = BitVec.ofNat 64 (n % 128) ||| (BitVec.ofNat 64 (n / 128)) <<< 7 := by
    apply BitVec.eq_of_getLsbD_eq
    intro i hi
    rw [BitVec.getLsbD_or, BitVec.getLsbD_shiftLeft, BitVec.getLsbD_ofNat, BitVec.getLsbD_ofNat,
      BitVec.getLsbD_ofNat, show n % 128 = n % 2 ^ 7 by rfl, Nat.testBit_mod_two_pow,
      show n / 128 = n / 2 ^ 7 by rfl, Nat.testBit_div_two_pow]
    by_cases h7 : i < 7
    · simp [h7]
    · have h1 : i - 7 + 7 = i := by omega
      have h2 : i - 7 < 64 := by omega
      simp [h7, h1, h2]
  rw [h, BitVec.shiftLeft_or_distrib, ← BitVec.shiftLeft_add, Nat.add_comm 7 s]

theorem readVarLoop_varint (k : Bool) (n : Nat) (rest : List Byte) :
    ∀ (fuel : Nat) (v : BitVec 64) (s : Nat), (Spec.varint n).length < fuel + 1 →
      readVarLoop (flatOps k) fuel v s (ofNats (Spec.varint n) ++ rest)
        = .ok (v ||| (BitVec.ofNat 64 n) <<< s, rest) := by
  induction n using Nat.strongRecOn with
  | ind n ih =>
    intro fuel v s hf
    rw [Spec.varint] at hf ⊢
    by_cases hlt : n < 128
    · rw [if_pos hlt] at hf ⊢
      cases fuel with
      | zero => simp at hf
      | succ fuel =>
        simp only [ofNats, List.map_cons, List.map_nil, List.cons_append, List.nil_append]
        rw [readVarLoop, next_flat_cons]
        have hand : (BitVec.ofNat 8 n &&& 128#8) = 0#8 := by
          rw [byte_high_iff, BitVec.toNat_ofNat]; omega
        have h127 : (BitVec.ofNat 8 n &&& 127#8).setWidth 64 = BitVec.ofNat 64 n := by
          apply BitVec.eq_of_toNat_eq
          rw [BitVec.toNat_setWidth, BitVec.toNat_and, BitVec.toNat_ofNat]
          have : (127#8).toNat = 2 ^ 7 - 1 := rfl
          rw [this, Nat.and_two_pow_sub_one_eq_mod, BitVec.toNat_ofNat]
          omega
        simp only [BitVec.ofNat_eq_ofNat, hand, h127, if_true]
    · rw [if_neg hlt] at hf ⊢
      cases fuel with
      | zero => simp at hf
      | succ fuel =>
        simp only [ofNats, List.map_cons, List.cons_append]
        rw [readVarLoop, next_flat_cons]
        have hb : (BitVec.ofNat 8 (128 + n % 128)).toNat = 128 + n % 128 := by
          rw [BitVec.toNat_ofNat]; omega
        have hand : ¬ (BitVec.ofNat 8 (128 + n % 128) &&& 128#8) = 0#8 := by
          rw [byte_high_iff, hb]; omega
        have h127 : (BitVec.ofNat 8 (128 + n % 128) &&& 127#8).setWidth 64
            = BitVec.ofNat 64 (n % 128) := by
          apply BitVec.eq_of_toNat_eq
          rw [BitVec.toNat_setWidth, BitVec.toNat_and, hb]
          have : (127#8).toNat = 2 ^ 7 - 1 := rfl
          rw [this, Nat.and_two_pow_sub_one_eq_mod, BitVec.toNat_ofNat]
          omega
        simp only [BitVec.ofNat_eq_ofNat, hand, h127, if_false]
        have := ih (n / 128) (by omega) fuel (v ||| BitVec.ofNat 64 (n % 128) <<< s) (s + 7)
          (by simpa using hf)
        rw [ofNats] at this
        rw [this, BitVec.or_assoc, or_shl]

theorem readVar_varint (k : Bool) (n : Nat) (rest : List Byte) :
    readVar (flatOps k) (ofNats (Spec.varint n) ++ rest) = .ok (BitVec.ofNat 64 n, rest) := by
  unfold readVar
  rw [readVarLoop_varint]
  · simp
  · simp [flatOps, ofNats]; omega

theorem readVar_encodeInt (k : Bool) (e : BitVec 64) (rest : List Byte) :
    readVar (flatOps k) (encodeInt e ++ rest) = .ok (e, rest) := by
  rw [encodeInt_eq, readVar_varint]; simp

theorem readLong_encodeInt (k : Bool) (x : BitVec 64) (rest : List Byte) :
    readLong (flatOps k) (encodeInt (zigzag64 x) ++ rest) = .ok (x, rest) := by
  simp [readLong, mapOk, readVar_encodeInt, unzigzag64_zigzag64]

theorem readInt_encodeInt (k : Bool) (x : BitVec 32) (rest : List Byte) :
    readInt (flatOps k) (encodeInt (zigzag32 x) ++ rest) = .ok (x, rest) := by
  simp [readInt, mapOk, readVar_encodeInt, unzigzag32_zigzag32]

end Verif
