import Verif.Gen.Json
import Verif.Gen.DefaultProof
import Verif.Go.LiteralProof
/-
Text and numbers in JSON: reading gives back what was written.
-/
namespace Verif

theorem fromUtf8From_enc (s : Str) : ∀ n, (s.flatMap String.utf8EncodeChar).length ≤ n →
    fromUtf8From n (s.flatMap String.utf8EncodeChar) = s := by
  induction s with
  | nil => intro n _; cases n <;> rfl
  | cons c s ih =>
    intro n hn
    rw [List.flatMap_cons] at hn ⊢
    have hl : (String.utf8EncodeChar c).length = c.utf8Size := String.length_utf8EncodeChar c
    have hpos := c.utf8Size_pos
    rw [List.length_append, hl] at hn
    obtain ⟨n, rfl⟩ : ∃ m, n = m + 1 := ⟨n - 1, by omega⟩
    generalize hL : String.utf8EncodeChar c ++ List.flatMap String.utf8EncodeChar s = L
    have hd : ByteArray.utf8DecodeChar? L.toByteArray 0 = some c := by
      rw [← hL, List.toByteArray_append]
      exact ByteArray.utf8DecodeChar?_utf8EncodeChar_append
    cases L with
    | nil =>
      exfalso
      have := congrArg List.length hL
      rw [List.length_append, hl] at this
      simp at this
      omega
    | cons b bs =>
      rw [fromUtf8From, hd]
      dsimp only
      rw [← hL, List.drop_left' hl, ih n (by omega)]

/-- Valid text is written as it is. -/
theorem fromUtf8_utf8 (s : Str) : fromUtf8 (utf8 s) = s := by
  unfold fromUtf8
  rw [utf8_flat, List.map_map, List.length_map]
  have : (UInt8.ofBitVec ∘ UInt8.toBitVec) = id := rfl
  rw [this, List.map_id]
  exact fromUtf8From_enc s _ (Nat.le_refl _)

theorem utf8_inj {s s' : Str} (h : utf8 s = utf8 s') : s = s' := by
  rw [← fromUtf8_utf8 s, h, fromUtf8_utf8]

/-! Numbers. -/

theorem jnum_neg (s : Bool) (c : Nat × Nat) : (jnum s c).neg = s := by
  unfold jnum; split <;> rfl

theorem jnum_num (s : Bool) (c : Nat × Nat) : (jnum s c).num = c.1 := by
  unfold jnum; split <;> rfl

theorem jnum_den (s : Bool) (c : Nat × Nat) : (jnum s c).den = c.2 := by
  unfold jnum
  split
  · rename_i h; exact h.1.symm
  · rfl

/-- A float is nearest to itself. -/
theorem roundTo_self (F : Fmt) (hp : 1 ≤ F.p) (y : Nat) : roundTo F (F.mag y) (2 ^ F.scale) = y := by
  have h := (roundTo_near F hp (F.mag y) (Nat.two_pow_pos F.scale) y).1
  generalize roundTo F (F.mag y) (2 ^ F.scale) = r at h
  have h0 : F.mag r * 2 ^ F.scale = F.mag y * 2 ^ F.scale := by omega
  have h1 : F.mag r = F.mag y := Nat.eq_of_mul_eq_mul_right (Nat.two_pow_pos _) h0
  rcases Nat.lt_trichotomy r y with h | h | h
  · have := mag_strict F h; omega
  · exact h
  · have := mag_strict F h; omega

theorem constFloat_nat {F : Fmt} {a d t : Nat} (h : roundTo F a d = t) (ht : t < F.top) :
    constFloat F a d = some (BitVec.ofNat F.width t) := by
  unfold constFloat
  dsimp only
  rw [Int.natAbs_natCast, h, if_neg (by omega), if_neg (by omega), Nat.add_zero]

theorem low_lt (F : Fmt) (b : BitVec F.width) : F.low b < 2 ^ (F.k + F.p) := Nat.mod_lt _ (Nat.two_pow_pos _)

theorem toNat_parts (F : Fmt) (b : BitVec F.width) : b.toNat = F.low b + if F.neg b then 2 ^ (F.k + F.p) else 0 := by
  have h := b.isLt
  have hw : 2 ^ F.width = 2 ^ (F.k + F.p) * 2 := by unfold Fmt.width; rw [← Nat.pow_succ]; congr 1; omega
  rw [hw] at h
  unfold Fmt.low Fmt.neg
  generalize b.toNat = n at *
  generalize 2 ^ (F.k + F.p) = m at *
  by_cases hn : m ≤ n
  · rw [if_pos (by simpa using hn), Nat.mod_eq_sub_mod hn, Nat.mod_eq_of_lt (by omega)]; omega
  · rw [if_neg (by simpa using hn), Nat.mod_eq_of_lt (by omega)]; omega

/-- What is written for a finite float reads back as it. -/
theorem reads_shortest (F : Fmt) (hk : 1 ≤ F.k) (hp : 1 ≤ F.p) {b : BitVec F.width} (h : F.low b < F.top) :
    F.Reads (jnum (F.neg b) (shortest F (F.mag (F.low b)) (2 ^ F.scale))) b := by
  obtain ⟨h1, h2⟩ := shortest_spec (F := F) (a := F.mag (F.low b)) (Nat.two_pow_pos F.scale)
  rw [roundTo_self F hp] at h2
  generalize shortest F (F.mag (F.low b)) (2 ^ F.scale) = c at *
  refine ⟨by rw [jnum_neg], by rw [jnum_den]; exact h1, ?_⟩
  rw [jnum_den, jnum_num]
  exact constFloat_near F hk hp h1 (constFloat_nat h2 h)

theorem floatNum_ok {F : Fmt} (hk : 1 ≤ F.k) (hp : 1 ≤ F.p) {b : BitVec F.width} (h : F.IsFinite b) :
    ∃ x, floatNum F b = .ok (.num x) ∧ F.Reads x b := by
  have h' := (finite_iff F _).1 h
  exact ⟨_, if_neg (by omega), reads_shortest F hk hp h'⟩

theorem floatInto_ok {F : Fmt} (hk : 1 ≤ F.k) (hp : 1 ≤ F.p) {x : JNum} {b : BitVec F.width} (h : F.Reads x b) :
    floatInto F x = .ok b := by
  have hc := Near.const hk hp h.den h.near
  unfold constFloat at hc
  dsimp only at hc
  rw [Int.natAbs_natCast] at hc
  have htop := top_lt (F := F) hk
  have hw : 2 ^ F.width = 2 ^ (F.k + F.p) * 2 := by unfold Fmt.width; rw [← Nat.pow_succ]; congr 1; omega
  unfold floatInto
  dsimp only
  generalize roundTo F x.num x.den = t at *
  split at hc
  · cases hc
  rename_i ht
  rw [if_neg ht]
  rw [if_neg (by omega), Nat.add_zero] at hc
  have e := congrArg BitVec.toNat (Option.some.inj hc)
  unfold Fmt.abs at e
  have hl := low_lt F b
  rw [BitVec.toNat_ofNat, BitVec.toNat_ofNat, hw, Nat.mod_eq_of_lt (by omega), Nat.mod_eq_of_lt (by omega)] at e
  congr 1
  apply BitVec.eq_of_toNat_eq
  rw [BitVec.toNat_ofNat, toNat_parts F b, h.sign, hw, e]
  apply Nat.mod_eq_of_lt
  split <;> omega

theorem intInto_ok {w : Nat} {s : Bool} {n : Nat} {z : Int} (hz : z = (if s then -(n : Int) else n))
    (h1 : -(2 ^ (w - 1) : Int) ≤ z) (h2 : z < 2 ^ (w - 1)) : intInto w (.int s n) = .ok (BitVec.ofInt w z) := by
  unfold intInto
  dsimp only
  rw [← hz, if_pos ⟨h1, h2⟩]

theorem byteChars_small (bs : List Byte) : ∀ c ∈ byteChars bs, c.toNat < 256 := by
  intro c hc
  obtain ⟨b, _, rfl⟩ := List.mem_map.1 hc
  have hb := b.isLt
  have : ∀ n : Fin 256, (Char.ofNat n.1).toNat < 256 := by decide +kernel
  exact this ⟨b.toNat, hb⟩

theorem byteChars_bytes (bs : List Byte) : ((byteChars bs).map fun c => BitVec.ofNat 8 c.toNat) = bs := by
  unfold byteChars
  rw [List.map_map]
  conv => rhs; rw [← List.map_id bs]
  apply List.map_congr_left
  intro b _
  have : ∀ n : Fin 256, BitVec.ofNat 8 (Char.ofNat n.1).toNat = BitVec.ofNat 8 n.1 := by decide +kernel
  have h := this ⟨b.toNat, b.isLt⟩
  simp only [Function.comp_def]
  rw [h]
  simp

end Verif
