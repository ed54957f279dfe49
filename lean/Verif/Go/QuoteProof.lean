import Verif.Go.Quote
import Verif.Gen.JsonText
/-
A literal that `%q` prints has the value it was printed for.
-/
namespace Verif
open Spec.Go

theorem hexDigit_back : ∀ d < 16, hexDigit (Char.ofNat (if d < 10 then 48 + d else 87 + d)) = some d := by decide

theorem hexNumber_digit (k acc n : Nat) (r : Str) :
    hexNumber (k + 1) acc (Char.ofNat (if n % 16 < 10 then 48 + n % 16 else 87 + n % 16) :: r) =
      hexNumber k (16 * acc + n % 16) r := by
  rw [hexNumber, hexDigit_back _ (Nat.mod_lt _ (by decide))]

theorem hexNumber_back : ∀ (k j acc n : Nat) (r : Str),
    hexNumber (k + j) acc (hexDigits k n ++ r) = hexNumber j (acc * 16 ^ k + n % 16 ^ k) r
  | 0, j, acc, n, r => by simp [hexDigits, Nat.mod_one]
  | k + 1, j, acc, n, r => by
    rw [hexDigits, List.append_assoc, Nat.add_right_comm, Nat.add_assoc, hexNumber_back k (j + 1) acc (n / 16)]
    rw [List.singleton_append, hexNumber_digit]
    congr 1
    rw [Nat.pow_succ, Nat.mul_comm (16 ^ k) 16, Nat.mod_mul, ← Nat.mul_assoc, Nat.mul_add]
    rw [Nat.mul_comm 16 (acc * 16 ^ k), Nat.mul_right_comm acc 16]
    omega

theorem hexNumber_all (k n : Nat) (r : Str) (h : n < 16 ^ k) : hexNumber k 0 (hexDigits k n ++ r) = some (n, r) := by
  have := hexNumber_back k 0 0 n r
  rw [Nat.add_zero] at this
  rw [this, hexNumber, Nat.mod_eq_of_lt h, Nat.zero_mul, Nat.zero_add]

theorem charBytes_ascii (c : Char) (h : c.toNat < 128) : charBytes c = [BitVec.ofNat 8 c.toNat] := by
  have e : String.utf8EncodeChar c = [c.toNat.toUInt8] := by
    unfold String.utf8EncodeChar
    have : c.val.toNat < 128 := h
    simp only [show c.val.toNat ≤ 0x7f by omega, if_true]
    rfl
  unfold charBytes
  rw [e]; rfl

theorem codePoint_back (c : Char) : codePoint c.toNat = some (charBytes c) := by
  unfold codePoint
  rw [if_pos (show c.toNat.isValidChar from c.valid)]
  congr 2
  exact Char.ofNat_toNat c

theorem element_back (print : Char → Bool) (hp : print '\n' = false) (c : Char) (r : Str) :
    element (quoteRune print c ++ r) = some (charBytes c, r) := by
  have hc : c.toNat < 1114112 := by
    have := c.valid
    rcases this with h | h
    · exact Nat.lt_trans h (by decide)
    · exact h.2
  unfold quoteRune
  by_cases h1 : c = '"' ∨ c = '\\'
  · rw [if_pos h1]
    rcases h1 with rfl | rfl <;> rfl
  · rw [if_neg h1]
    rw [not_or] at h1
    by_cases h2 : print c = true
    · rw [if_pos h2]
      have : c ≠ '\n' := by rintro rfl; rw [hp] at h2; cases h2
      show element (c :: r) = _
      simp only [element]
      rw [if_neg this, if_pos h1.2]
    · rw [if_neg h2]
      have hx : ∀ e : Char, e = 'x' ∨ e = 'u' ∨ e = 'U' → ∀ s : Str, element ('\\' :: e :: s) =
          if e = 'x' then (hexNumber 2 0 s).map fun x => ([BitVec.ofNat 8 x.1], x.2)
          else if e = 'u' then (hexNumber 4 0 s).bind fun x => (codePoint x.1).map fun v => (v, x.2)
          else (hexNumber 8 0 s).bind fun x => (codePoint x.1).map fun v => (v, x.2) := by
        intro e he s
        rcases he with rfl | rfl | rfl <;> rfl
      cases h3 : controlEscape c with
      | some e =>
        dsimp only
        have key : ∀ (k : Nat) (x : Char) (b : Byte), c.toNat = k → k < 128 → e = x → shortEscape x = some b → b = BitVec.ofNat 8 k →
            x ≠ 'x' → x ≠ 'u' → x ≠ 'U' → element (['\\', e] ++ r) = some (charBytes c, r) := by
          intro k x b hk h128 he hb hbk n1 n2 n3
          subst he
          rw [charBytes_ascii c (by omega), hk]
          show element ('\\' :: e :: r) = _
          simp only [element]
          rw [if_neg (by decide), if_neg (by decide)]
          rw [if_neg n1, if_neg n2, if_neg n3, hb, hbk]; rfl
        unfold controlEscape at h3
        repeat' split at h3
        all_goals first
          | (rename_i hk; cases h3; exact key _ _ _ hk (by decide) rfl rfl (by decide) (by decide) (by decide) (by decide))
          | cases h3
      | none =>
        dsimp only
        by_cases h4 : c.toNat < 32 ∨ c.toNat = 127
        · rw [if_pos h4]
          show element ('\\' :: 'x' :: (hexDigits 2 c.toNat ++ r)) = _
          rw [hx _ (by decide), if_pos rfl, hexNumber_all _ _ _ (by omega), charBytes_ascii c (by omega)]; rfl
        · rw [if_neg h4]
          by_cases h5 : c.toNat < 65536
          · rw [if_pos h5]
            show element ('\\' :: 'u' :: (hexDigits 4 c.toNat ++ r)) = _
            rw [hx _ (by decide), if_neg (by decide), if_pos rfl, hexNumber_all _ _ _ (by omega)]
            simp only [Option.bind_some, codePoint_back, Option.map_some]
          · rw [if_neg h5]
            show element ('\\' :: 'U' :: (hexDigits 8 c.toNat ++ r)) = _
            rw [hx _ (by decide), if_neg (by decide), if_neg (by decide), hexNumber_all _ _ _ (by omega)]
            simp only [Option.bind_some, codePoint_back, Option.map_some]

/-- An element never begins with the closing quote. -/
theorem quoteRune_head (print : Char → Bool) (c : Char) : ∃ x xs, quoteRune print c = x :: xs ∧ x ≠ '"' := by
  unfold quoteRune
  by_cases h1 : c = '"' ∨ c = '\\'
  · rw [if_pos h1]; exact ⟨_, _, rfl, by decide⟩
  · rw [if_neg h1]
    by_cases h2 : print c = true
    · rw [if_pos h2]; exact ⟨_, _, rfl, fun e => h1 (.inl e)⟩
    · rw [if_neg h2]
      cases controlEscape c with
      | some e => exact ⟨_, _, rfl, by decide⟩
      | none =>
        dsimp only
        split
        · exact ⟨_, _, rfl, by decide⟩
        · split <;> exact ⟨_, _, rfl, by decide⟩

theorem literal_element {n : Nat} {s r : Str} {v : List Byte} {x : Char} {xs : Str} (hs : s = x :: xs) (hx : x ≠ '"')
    (he : element s = some (v, r)) : strLit (n + 1) s = (strLit n r).map fun y => (v ++ y.1, y.2) := by
  subst hs
  rw [strLit, if_neg hx, he]

theorem literal_back (print : Char → Bool) (hp : print '\n' = false) (r : Str) : ∀ (k n : Nat) (bs : List UInt8),
    bs.length ≤ k → (quoteFrom print k bs).length < n → strLit n (quoteFrom print k bs ++ '"' :: r) = some (bs.map UInt8.toBitVec, r)
  | 0, 0, bs, _, h => by omega
  | 0, n + 1, bs, h, _ => by
    cases bs with
    | nil => rfl
    | cons b bs => simp at h
  | k + 1, n, [], _, hn => by
    obtain ⟨n, rfl⟩ : ∃ m, n = m + 1 := ⟨n - 1, by omega⟩
    rfl
  | k + 1, n, b :: bs, hk, hn => by
    obtain ⟨n, rfl⟩ : ∃ m, n = m + 1 := ⟨n - 1, by omega⟩
    rw [quoteFrom] at hn ⊢
    cases hd : ByteArray.utf8DecodeChar? (b :: bs).toByteArray 0 with
    | some c =>
      rw [hd] at hn
      dsimp only at hn ⊢
      obtain ⟨x, xs, hx, hq⟩ := quoteRune_head print c
      rw [List.append_assoc]
      rw [literal_element (s := quoteRune print c ++ (quoteFrom print k ((b :: bs).drop c.utf8Size) ++ '"' :: r))
        (x := x) (xs := xs ++ (quoteFrom print k ((b :: bs).drop c.utf8Size) ++ '"' :: r)) (by rw [hx]; rfl) hq
        (element_back print hp c _)]
      have hpos := c.utf8Size_pos
      have hl : ((b :: bs).drop c.utf8Size).length ≤ k ∧ (quoteFrom print k ((b :: bs).drop c.utf8Size)).length < n := by
        refine ⟨by simp only [List.length_drop, List.length_cons] at hk ⊢; omega, ?_⟩
        rw [hx] at hn
        simp only [List.length_append, List.length_cons] at hn; omega
      rw [literal_back print hp r k n _ hl.1 hl.2]
      simp only [Option.map_some]
      congr 2
      obtain ⟨l, hl'⟩ := ByteArray.exists_of_utf8DecodeChar?_eq_some hd
      have e : b :: bs = String.utf8EncodeChar c ++ l.data.toList := by
        have := congrArg (fun a => a.data.toList) hl'
        simpa using this
      rw [e, List.drop_left' (String.length_utf8EncodeChar c), List.map_append]; rfl
    | none =>
      rw [hd] at hn
      dsimp only at hn ⊢
      have hx : element ('\\' :: 'x' :: hexDigits 2 b.toNat ++ (quoteFrom print k bs ++ '"' :: r)) =
          some ([b.toBitVec], quoteFrom print k bs ++ '"' :: r) := by
        show ((hexNumber 2 0 (hexDigits 2 b.toNat ++ (quoteFrom print k bs ++ '"' :: r))).map
          fun x => ([BitVec.ofNat 8 x.1], x.2)) = _
        rw [hexNumber_all _ _ _ (by have := b.toNat_lt; omega)]
        simp only [Option.map_some]
        have hb : BitVec.ofNat 8 b.toNat = b.toBitVec := by
          apply BitVec.eq_of_toNat_eq
          rw [BitVec.toNat_ofNat]
          exact Nat.mod_eq_of_lt b.toNat_lt
        rw [hb]
      rw [List.append_assoc]
      rw [literal_element (s := '\\' :: 'x' :: hexDigits 2 b.toNat ++ (quoteFrom print k bs ++ '"' :: r)) (x := '\\') (xs := 'x' :: hexDigits 2 b.toNat ++ (quoteFrom print k bs ++ '"' :: r)) rfl (by decide) hx]
      simp only [List.length_cons, List.length_append, List.cons_append] at hk hn
      rw [literal_back print hp r k n bs (by omega) (by omega)]
      rfl

end Verif
