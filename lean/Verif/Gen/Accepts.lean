import Verif.Spec.Loose
import Verif.Gen.BoolFree
import Verif.Gen.BadIndexProof
/-
What `parse` reads is what Spec/Loose says.
-/
namespace Verif
set_option linter.unusedSimpArgs false
set_option linter.unusedVariables false

/-! ### Integers -/

theorem marked_cons {b : Byte} {bs : List Byte} (hb : 128 ≤ b.toNat) (h : Marked bs) : Marked (b :: bs) := by
  cases bs with
  | nil => exact absurd h (by simp [Marked])
  | cons c bs => exact ⟨hb, h⟩

theorem low_bits (b : Byte) : (b &&& 127).setWidth 64 = BitVec.ofNat 64 (b.toNat % 128) := by
  apply BitVec.eq_of_toNat_eq
  rw [BitVec.toNat_setWidth, BitVec.toNat_and]
  have : (127 : Byte).toNat = 2 ^ 7 - 1 := rfl
  rw [this, Nat.and_two_pow_sub_one_eq_mod, BitVec.toNat_ofNat]

/-- The number that octets denote. -/
def denoted (e : List Byte) : Nat := Spec.varintValue (e.map (·.toNat))

theorem denoted_cons (b : Byte) (e : List Byte) : denoted (b :: e) = b.toNat % 128 + 128 * denoted e := rfl

theorem or_denoted (b : Byte) (e : List Byte) (s : Nat) :
    (BitVec.ofNat 64 (b.toNat % 128)) <<< s ||| (BitVec.ofNat 64 (denoted e)) <<< (s + 7) =
      (BitVec.ofNat 64 (denoted (b :: e))) <<< s := by
  have h1 : denoted (b :: e) % 128 = b.toNat % 128 := by rw [denoted_cons]; omega
  have h2 : denoted (b :: e) / 128 = denoted e := by rw [denoted_cons]; omega
  rw [← or_shl (denoted (b :: e)), h1, h2]

theorem readVarLoop_inv (k : Bool) : ∀ (fuel : Nat) (v : BitVec 64) (s : Nat) (r : List Byte) (u : BitVec 64) (r' : List Byte),
    readVarLoop (flatOps k) fuel v s r = .ok (u, r') →
      ∃ e, r = e ++ r' ∧ Marked e ∧ u = v ||| (BitVec.ofNat 64 (denoted e)) <<< s := by
  intro fuel
  induction fuel with
  | zero => intro v s r u r' h; cases h
  | succ n ih =>
    intro v s r u r' h
    cases r with
    | nil => simp [readVarLoop, next_flat_nil] at h
    | cons b r =>
      rw [readVarLoop, next_flat_cons] at h
      simp only [low_bits] at h
      split at h
      · rename_i hb
        cases h
        have hb' := (byte_high_iff b).1 hb
        exact ⟨[b], rfl, hb', by rw [denoted_cons]; simp [denoted, Spec.varintValue]⟩
      · rename_i hb
        obtain ⟨e, rfl, h1, h2⟩ := ih _ _ _ _ _ h
        have hb' : 128 ≤ b.toNat := Nat.not_lt.1 fun x => hb ((byte_high_iff b).2 x)
        refine ⟨b :: e, rfl, marked_cons hb' h1, ?_⟩
        rw [h2, BitVec.or_assoc, or_denoted]

theorem readVarLoop_marked (k : Bool) (rest : List Byte) : ∀ (e : List Byte) (fuel : Nat) (v : BitVec 64) (s : Nat),
    Marked e → e.length ≤ fuel →
      readVarLoop (flatOps k) fuel v s (e ++ rest) = .ok (v ||| (BitVec.ofNat 64 (denoted e)) <<< s, rest) := by
  intro e
  induction e with
  | nil => intro _ _ _ h; exact absurd h (by simp [Marked])
  | cons b e ih =>
    intro fuel v s h hf
    obtain ⟨n, rfl⟩ : ∃ n, fuel = n + 1 := ⟨fuel - 1, by simp at hf; omega⟩
    rw [List.cons_append, readVarLoop, next_flat_cons]
    simp only [low_bits]
    cases e with
    | nil =>
      have hb : b &&& 128 = 0 := (byte_high_iff b).2 h
      rw [if_pos hb, denoted_cons]
      simp [denoted, Spec.varintValue]
    | cons c e =>
      have hb : ¬ b &&& 128 = 0 := fun x => by have := (byte_high_iff b).1 x; have := h.1; omega
      rw [if_neg hb, ih n _ _ h.2 (by simp at hf ⊢; omega), BitVec.or_assoc, or_denoted]

theorem readVar_iff (k : Bool) {r r' : List Byte} {u : BitVec 64} :
    readVar (flatOps k) r = .ok (u, r') ↔ ∃ e, r = e ++ r' ∧ Marked e ∧ u = BitVec.ofNat 64 (denoted e) := by
  constructor
  · intro h
    obtain ⟨e, h1, h2, h3⟩ := readVarLoop_inv k _ _ _ _ _ _ h
    exact ⟨e, h1, h2, by simpa using h3⟩
  · rintro ⟨e, rfl, h1, rfl⟩
    unfold readVar
    rw [readVarLoop_marked k r' e _ _ _ h1 (by simp [flatOps]; omega)]
    simp

theorem unzigzag64_toInt (v : BitVec 64) : (unzigzag64 v).toInt = unzigzag v.toNat := by
  have hv := v.isLt
  have h1 := and_one_toNat v
  have hsh : (v >>> 1).toNat = v.toNat / 2 := by
    simp [BitVec.toNat_ushiftRight, Nat.shiftRight_eq_div_pow]
  unfold unzigzag64 unzigzag
  rw [BitVec.toInt_eq_toNat_cond]
  by_cases he : v.toNat % 2 = 0
  · have h0 : v &&& 1 = 0 := BitVec.eq_of_toNat_eq (by rw [h1]; simp; omega)
    rw [h0, if_pos he]
    simp only [BitVec.ofNat_eq_ofNat, BitVec.neg_zero, BitVec.xor_zero]
    rw [hsh]; split <;> omega
  · have h0 : v &&& 1 = 1 := BitVec.eq_of_toNat_eq (by rw [h1]; simp; omega)
    rw [h0, show (-1 : BitVec 64) = BitVec.allOnes 64 by decide, allOnes_xor_toNat, hsh, if_neg he]
    split <;> omega

theorem unzigzag32_eq (v : BitVec 64) : unzigzag32 v = (unzigzag64 v).setWidth 32 := by
  have h1 : (v.sshiftRight 1).setWidth 32 = (v >>> 1).setWidth 32 := by
    apply BitVec.eq_of_getLsbD_eq
    intro i hi
    rw [BitVec.getLsbD_setWidth, BitVec.getLsbD_setWidth, BitVec.getLsbD_sshiftRight, BitVec.getLsbD_ushiftRight]
    rw [if_pos (by omega), decide_eq_false (by omega : ¬ 64 ≤ i)]
    simp
  have h2 : ∀ b : BitVec 64, b = 0 ∨ b = 1 → -(b.setWidth 32) = (-b).setWidth 32 := by
    rintro b (rfl | rfl) <;> decide
  have h3 := and_one_toNat v
  unfold unzigzag32 unzigzag64
  rw [h1, BitVec.setWidth_xor, h2]
  by_cases he : v.toNat % 2 = 0
  · exact .inl (BitVec.eq_of_toNat_eq (by rw [h3]; simp; omega))
  · exact .inr (BitVec.eq_of_toNat_eq (by rw [h3]; simp; omega))

theorem mapOk_iff {α β : Type} {g : α → β} {x : Except Err (α × List Byte)} {b : β} {r : List Byte} :
    mapOk g x = .ok (b, r) ↔ ∃ a, x = .ok (a, r) ∧ b = g a := by
  cases x with
  | error e => simp [mapOk]
  | ok y =>
    obtain ⟨a, r1⟩ := y
    simp only [mapOk, Except.ok.injEq, Prod.mk.injEq]
    constructor
    · rintro ⟨rfl, rfl⟩; exact ⟨a, ⟨rfl, rfl⟩, rfl⟩
    · rintro ⟨a', ⟨rfl, rfl⟩, rfl⟩; exact ⟨rfl, rfl⟩

theorem someLong_iff {x : BitVec 64} {e : List Byte} :
    SomeLong x.toInt e ↔ Marked e ∧ x = unzigzag64 (BitVec.ofNat 64 (denoted e)) := by
  unfold SomeLong
  refine and_congr_right fun _ => ?_
  have : unzigzag (Spec.varintValue (e.map (·.toNat)) % 2 ^ 64) = (unzigzag64 (BitVec.ofNat 64 (denoted e))).toInt := by
    rw [unzigzag64_toInt, BitVec.toNat_ofNat]; rfl
  rw [this]
  exact ⟨fun h => BitVec.eq_of_toInt_eq h, fun h => h ▸ rfl⟩

theorem readLong_iff (k : Bool) {r r' : List Byte} {x : BitVec 64} :
    readLong (flatOps k) r = .ok (x, r') ↔ ∃ e, r = e ++ r' ∧ SomeLong x.toInt e := by
  unfold readLong
  rw [mapOk_iff]
  constructor
  · rintro ⟨a, h, rfl⟩
    obtain ⟨e, h1, h2, rfl⟩ := (readVar_iff k).1 h
    exact ⟨e, h1, someLong_iff.2 ⟨h2, rfl⟩⟩
  · rintro ⟨e, h1, h2⟩
    obtain ⟨h3, h4⟩ := someLong_iff.1 h2
    exact ⟨_, (readVar_iff k).2 ⟨e, h1, h3, rfl⟩, h4⟩

/-- A number that is taken for something is one of 64 bits. -/
theorem SomeLong.bits {x : Int} {e : List Byte} (h : SomeLong x e) : (BitVec.ofInt 64 x).toInt = x := by
  obtain ⟨h1, h2⟩ := h
  have : Spec.varintValue (e.map (·.toNat)) % 2 ^ 64 < 2 ^ 64 := Nat.mod_lt _ (by decide)
  have hx : -(2 ^ 63) ≤ x ∧ x < 2 ^ 63 := by
    rw [h2]; unfold unzigzag; split <;> omega
  exact bmod_id x hx.1 hx.2

theorem readLong_some (k : Bool) {x : Int} {e : List Byte} (h : SomeLong x e) (rest : List Byte) :
    readLong (flatOps k) (e ++ rest) = .ok (BitVec.ofInt 64 x, rest) :=
  (readLong_iff k).2 ⟨e, rfl, by rw [h.bits]; exact h⟩

theorem readInt_iff (k : Bool) {r r' : List Byte} {v : BitVec 32} :
    readInt (flatOps k) r = .ok (v, r') ↔ ∃ e, r = e ++ r' ∧ ∃ x, SomeLong x e ∧ v = BitVec.ofInt 32 x := by
  have key : ∀ y : BitVec 64, y.setWidth 32 = BitVec.ofInt 32 y.toInt := by
    intro y
    apply BitVec.eq_of_toInt_eq
    rw [BitVec.toInt_ofInt, BitVec.toInt_eq_toNat_bmod, BitVec.toNat_setWidth, BitVec.toInt_eq_toNat_cond]
    split
    · rw [Int.bmod_def, Int.bmod_def]
      have : (y.toNat : Int) % ((2 ^ 32 : Nat) : Int) = ((y.toNat % 2 ^ 32 : Nat) : Int) % ((2 ^ 32 : Nat) : Int) := by omega
      rw [this]
    · rw [Int.bmod_def, Int.bmod_def]
      have : ((y.toNat : Int) - (2 ^ 64 : Nat)) % ((2 ^ 32 : Nat) : Int) = ((y.toNat % 2 ^ 32 : Nat) : Int) % ((2 ^ 32 : Nat) : Int) := by omega
      rw [this]
  have h0 : readInt (flatOps k) r = mapOk (fun x : BitVec 64 => x.setWidth 32) (readLong (flatOps k) r) := by
    unfold readInt readLong
    cases readVar (flatOps k) r with
    | error e => rfl
    | ok y => simp only [mapOk, unzigzag32_eq]
  rw [h0, mapOk_iff]
  constructor
  · rintro ⟨a, h, rfl⟩
    obtain ⟨e, h1, h2⟩ := (readLong_iff k).1 h
    exact ⟨e, h1, _, h2, key a⟩
  · rintro ⟨e, rfl, x, h, rfl⟩
    refine ⟨_, readLong_some k h r', ?_⟩
    rw [key, h.bits]

/-! ### Other primitives -/

theorem readFull_iff (k : Bool) {n : Nat} {r r' x : List Byte} :
    (flatOps k).readFull r n = .ok (x, r') ↔ r = x ++ r' ∧ x.length = n := by
  show flatReadFull r n = _ ↔ _
  unfold flatReadFull
  split
  · rename_i h
    simp only [Except.ok.injEq, Prod.mk.injEq]
    constructor
    · rintro ⟨rfl, rfl⟩; exact ⟨(List.take_append_drop n r).symm, by simp; omega⟩
    · rintro ⟨rfl, rfl⟩; simp
  · rename_i h
    constructor
    · intro h; split at h <;> cases h
    · rintro ⟨rfl, rfl⟩; simp at h

theorem readSized_iff (e : Err) (k : Bool) {r r' x : List Byte} :
    readSized e (flatOps k) r = .ok (x, r') ↔ ∃ c, r = c ++ r' ∧ SomeBytes x c := by
  unfold readSized
  constructor
  · intro h
    cases h1 : readLong (flatOps k) r with
    | error e => rw [h1] at h; cases h
    | ok y =>
      obtain ⟨n, r1⟩ := y
      rw [h1] at h
      simp only [bindOk] at h
      obtain ⟨c, rfl, hc⟩ := (readLong_iff k).1 h1
      split at h
      · cases h
      · rename_i hn
        have hn' : n.toInt = n.toNat := by
          rw [BitVec.toInt_eq_toNat_cond] at hn ⊢; split at hn <;> split <;> omega
        split at h
        · rename_i h0
          cases h
          subst h0
          exact ⟨c, rfl, c, hc, by simp, by simp⟩
        · obtain ⟨rfl, hx⟩ := (readFull_iff k).1 h
          exact ⟨c ++ x, by simp, c, by rw [hx, ← hn']; exact hc, by omega, rfl⟩
  · rintro ⟨_, rfl, c, hc, hx, rfl⟩
    rw [List.append_assoc, readLong_some k hc]
    simp only [bindOk]
    have hb := hc.bits
    rw [if_neg (by rw [hb]; omega)]
    split
    · rename_i h0
      rw [h0] at hb
      have : x.length = 0 := by simp at hb; omega
      rw [List.length_eq_zero_iff] at this
      subst this
      rfl
    · rw [readFull_iff]
      exact ⟨rfl, by simp; omega⟩

theorem readFixed_iff (k : Bool) {n : Int} {r r' x : List Byte} :
    readFixed (flatOps k) n r = .ok (x, r') ↔ r = x ++ r' ∧ n = x.length := by
  unfold readFixed
  split
  · constructor
    · intro h; cases h
    · rintro ⟨_, rfl⟩; omega
  · rw [readFull_iff]
    refine and_congr_right fun _ => ?_
    omega

theorem readBool_iff {r r' : List Byte} {b : Bool} :
    readBool (flatOps false) r = .ok (b, r') ↔ ∃ x : Byte, r = x :: r' ∧ b = decide (x = 1) := by
  cases r with
  | nil => simp [readBool, flatOps, flatReadFull]
  | cons x r =>
    rw [readBool_cons]
    simp only [Except.ok.injEq, Prod.mk.injEq, List.cons.injEq]
    constructor
    · rintro ⟨rfl, rfl⟩; exact ⟨x, ⟨rfl, rfl⟩, by rw [Bool.beq_eq_decide_eq]⟩
    · rintro ⟨y, ⟨rfl, rfl⟩, rfl⟩; exact ⟨by rw [Bool.beq_eq_decide_eq], rfl⟩

theorem octets_leNat : ∀ (x : List Byte), octets (Spec.littleEndian x.length (leNat x)) = x
  | [] => rfl
  | b :: x => by
    have hb : b.toNat < 256 := b.isLt
    simp only [List.length_cons, Spec.littleEndian, leNat, octets, List.map_cons]
    have h1 : (b.toNat + 256 * leNat x) % 256 = b.toNat := by omega
    have h2 : (b.toNat + 256 * leNat x) / 256 = leNat x := by omega
    rw [h1, h2]
    have := octets_leNat x
    unfold octets at this
    rw [this]
    simp

theorem leNat_lt : ∀ x : List Byte, leNat x < 256 ^ x.length
  | [] => by simp [leNat]
  | b :: x => by
    have hb : b.toNat < 256 := b.isLt
    have := leNat_lt x
    simp only [leNat, List.length_cons, Nat.pow_succ]
    omega

theorem leNat_octets : ∀ k n, n < 256 ^ k → leNat (octets (Spec.littleEndian k n)) = n
  | 0, n, h => by simp [Spec.littleEndian, octets, leNat] at *; omega
  | k + 1, n, h => by
    have := leNat_octets k (n / 256) (by rw [Nat.pow_succ] at h; omega)
    simp only [Spec.littleEndian, octets, List.map_cons, leNat] at this ⊢
    rw [this]
    simp; omega

theorem readLe_iff (k : Bool) {w m : Nat} (hw : 2 ^ w = 256 ^ m) {r r' : List Byte} {v : BitVec w} :
    mapOk (fun bs => BitVec.ofNat w (leNat bs)) ((flatOps k).readFull r m) = .ok (v, r') ↔
      ∃ e, r = e ++ r' ∧ e = octets (Spec.littleEndian m v.toNat) := by
  rw [mapOk_iff]
  constructor
  · rintro ⟨x, h, rfl⟩
    obtain ⟨rfl, rfl⟩ := (readFull_iff k).1 h
    have := leNat_lt x
    refine ⟨x, rfl, ?_⟩
    rw [BitVec.toNat_ofNat, hw, Nat.mod_eq_of_lt this, octets_leNat]
  · rintro ⟨e, rfl, rfl⟩
    refine ⟨_, (readFull_iff k).2 ⟨rfl, by simp [octets, littleEndian_length]⟩, ?_⟩
    rw [leNat_octets _ _ (by rw [← hw]; exact v.isLt)]
    simp

/-! ### Collections -/

/-- `p` takes for `a` only what `P` says. -/
def Takes {α : Type} (p : List Byte → Out (α × List Byte)) (P : α → List Byte → Prop) : Prop :=
  ∀ r a r', p r = .done (a, r') → ∃ e, r = e ++ r' ∧ P a e

/-- Element by element. -/
def TakenAll {α : Type} (P : α → List Byte → Prop) : List α → List (List Byte) → Prop
  | [], es => es = []
  | d :: ds, es => ∃ e es', es = e :: es' ∧ P d e ∧ TakenAll P ds es'

theorem takenAll_length {α : Type} {P : α → List Byte → Prop} : ∀ {ds es}, TakenAll P ds es → ds.length = es.length
  | [], es, h => by cases h; rfl
  | d :: ds, es, h => by
    obtain ⟨e, es', rfl, -, h'⟩ := h
    simp [takenAll_length h']

theorem takenAll_append {α : Type} {P : α → List Byte → Prop} : ∀ {ds es ds' es'}, TakenAll P ds es → TakenAll P ds' es' →
    TakenAll P (ds ++ ds') (es ++ es')
  | [], es, ds', es', h, h' => by cases h; exact h'
  | d :: ds, es, ds', es', h, h' => by
    obtain ⟨e, es1, rfl, h1, h2⟩ := h
    exact ⟨e, _, rfl, h1, takenAll_append h2 h'⟩

theorem bind_done {α β : Type} {x : Out α} {f : α → Out β} {b : β} (h : x.bind f = .done b) : ∃ a, x = .done a ∧ f a = .done b := by
  cases x with
  | timeout => cases h
  | err e => cases h
  | done a => exact ⟨a, rfl, h⟩

theorem parseRep_taken {α : Type} {p : List Byte → Out (α × List Byte)} {P : α → List Byte → Prop} (hp : Takes p P) :
    ∀ k r as r', parseRep p k r = .done (as, r') → ∃ es, r = es.flatten ++ r' ∧ as.length = k ∧ TakenAll P as es
  | 0, r, as, r', h => by cases h; exact ⟨[], rfl, rfl, rfl⟩
  | k + 1, r, as, r', h => by
    obtain ⟨⟨a, r1⟩, h1, h⟩ := bind_done h
    obtain ⟨⟨as1, r2⟩, h2, h⟩ := bind_done h
    cases h
    obtain ⟨e, rfl, he⟩ := hp _ _ _ h1
    obtain ⟨es, h3, h4, h5⟩ := parseRep_taken hp k _ _ _ h2
    simp only at h3
    subst h3
    exact ⟨e :: es, by simp, by simp [h4], e, es, rfl, he, h5⟩

theorem parseBlocks_taken {α : Type} {p : List Byte → Out (α × List Byte)} {P : α → List Byte → Prop} (hp : Takes p P)
    (k : Bool) (lim : Nat) : ∀ n first r as r', parseBlocks (flatOps k) lim p n first r = .done (as, r') →
      ∃ es e, r = e ++ r' ∧ TakenAll P as es ∧ SomeBlocks lim first es e := by
  intro n
  induction n with
  | zero => intro first r as r' h; simp [parseBlocks] at h
  | succ n ih =>
    intro first r as r' h
    rw [parseBlocks] at h
    cases h1 : readLong (flatOps k) r with
    | error e => rw [h1] at h; cases h
    | ok y =>
      obtain ⟨c, r1⟩ := y
      rw [h1] at h
      simp only at h
      obtain ⟨e1, rfl, hc⟩ := (readLong_iff k).1 h1
      split at h
      · rename_i h0
        cases h
        subst h0
        exact ⟨[], e1, rfl, rfl, .done hc⟩
      · rename_i h0
        have items : ∀ (m : BitVec 64) (r2 : List Byte), parseBlocks.items (flatOps k) lim p n first m r2 = .done (as, r') →
            ∃ es rest bs, r2 = es.flatten ++ (bs ++ r') ∧ es.length = m.toNat ∧ (first = true → 0 ≤ m.toInt ∧ m.toInt ≤ lim) ∧
              SomeBlocks lim false rest bs ∧ TakenAll P as (es ++ rest) := by
          intro m r2 h
          rw [parseBlocks.items] at h
          split at h
          · cases h
          · rename_i hm
            obtain ⟨⟨as1, r3⟩, h2, h⟩ := bind_done h
            obtain ⟨⟨as2, r4⟩, h3, h⟩ := bind_done h
            cases h
            obtain ⟨es, h4, h5, h6⟩ := parseRep_taken hp _ _ _ _ h2
            obtain ⟨rest, bs, h7, h8, h9⟩ := ih _ _ _ _ h3
            simp only at h7
            subst h7
            refine ⟨es, rest, bs, h4, by rw [← takenAll_length h6]; exact h5, ?_, h9, takenAll_append h6 h8⟩
            intro hf
            have : ¬ (m.toInt < 0 ∨ (lim : Int) < m.toInt) := fun x => hm ⟨hf, x⟩
            omega
        have hc0 : c.toInt ≠ 0 := fun x => h0 (BitVec.eq_of_toInt_eq (by rw [x]; rfl))
        split at h
        · rename_i hpos
          obtain ⟨es, rest, bs, rfl, h2, h3, h4, h5⟩ := items _ _ h
          have hcn : c.toInt = c.toNat := by
            rw [BitVec.toInt_eq_toNat_cond] at hpos ⊢; split at hpos <;> split <;> omega
          refine ⟨es ++ rest, e1 ++ es.flatten ++ bs, by simp, h5, .counted ?_ ?_ ?_ h4⟩
          · rintro rfl; simp at h2; omega
          · rw [h2, ← hcn]; exact hc
          · intro hf; have := h3 hf; omega
        · rename_i hpos
          cases h6 : readLong (flatOps k) r1 with
          | error e => rw [h6] at h; cases h
          | ok y =>
            obtain ⟨sz, r2⟩ := y
            rw [h6] at h
            simp only at h
            obtain ⟨e2, rfl, hsz⟩ := (readLong_iff k).1 h6
            obtain ⟨es, rest, bs, rfl, h2, h3, h4, h5⟩ := items _ _ h
            have hcn : c.toInt = -((-c).toNat : Int) := by
              rw [BitVec.toNat_neg]
              rw [BitVec.toInt_eq_toNat_cond] at hpos hc0 ⊢
              have := c.isLt
              split at hpos <;> split <;> omega
            refine ⟨es ++ rest, e1 ++ e2 ++ es.flatten ++ bs, by simp, h5, .sized ?_ ?_ hsz ?_ h4⟩
            · rintro rfl; simp only [List.length_nil] at h2; omega
            · rw [h2, ← hcn]; exact hc
            · intro hf
              have h7 := h3 hf
              rw [BitVec.toInt_eq_toNat_cond] at h7
              split at h7 <;> omega

theorem SomeLong.range {x : Int} {e : List Byte} (h : SomeLong x e) : -(2 ^ 63) ≤ x ∧ x < 2 ^ 63 := by
  have h1 := h.bits
  have h2 := BitVec.toInt_lt (x := BitVec.ofInt 64 x)
  have h3 := BitVec.le_toInt (x := BitVec.ofInt 64 x)
  rw [h1] at h2 h3
  exact ⟨h3, h2⟩

theorem parseBlocks_some {α : Type} {p : List Byte → Out (α × List Byte)} (k : Bool) {lim : Nat} (hl : lim < 2 ^ 63)
    {first : Bool} {es : List (List Byte)} {bs : List Byte} (hb : SomeBlocks lim first es bs) :
    ∀ {ds}, ReadsAll p ds es → ∀ n rest, ds.length + 1 ≤ n →
      parseBlocks (flatOps k) lim p n first (bs ++ rest) = .done (ds, rest) := by
  induction hb with
  | done hc =>
    intro ds h n rest hn
    cases ds with
    | cons d ds => obtain ⟨_, _, h, _⟩ := h; cases h
    | nil =>
      obtain ⟨m, rfl⟩ : ∃ m, n = m + 1 := ⟨n - 1, by simp at hn; omega⟩
      simp only [parseBlocks, readLong_some k hc]
      rfl
  | @counted first c es rest' bs hne hc hlim hb ih =>
    intro ds h n rest hn
    obtain ⟨m, rfl⟩ : ∃ m, n = m + 1 := ⟨n - 1, by omega⟩
    obtain ⟨ds₁, ds₂, rfl, h1, h2⟩ := readsAll_split h
    have hlen := readsAll_length h1
    have hpos : 0 < es.length := by cases es <;> simp_all
    have hr := hc.range
    simp only [List.length_append] at hn
    simp only [parseBlocks, List.append_assoc]
    rw [readLong_some k hc]
    obtain ⟨z1, z2, z3, z4⟩ := bv_ofInt_pos es.length hpos (by omega)
    simp only [if_neg z1, if_pos z2]
    simp only [parseBlocks.items, z3, z4]
    rw [if_neg (by rintro ⟨hf, hx⟩; have := hlim hf; omega), ← hlen, parseRep_reads h1]
    simp only [Out.bind]
    rw [ih h2 m rest (by omega)]
  | @sized first c sz s es rest' bs hne hc hs hlim hb ih =>
    intro ds h n rest hn
    obtain ⟨m, rfl⟩ : ∃ m, n = m + 1 := ⟨n - 1, by omega⟩
    obtain ⟨ds₁, ds₂, rfl, h1, h2⟩ := readsAll_split h
    have hlen := readsAll_length h1
    have hpos : 0 < es.length := by cases es <;> simp_all
    have hr := hc.range
    have hbits := hc.bits
    simp only [List.length_append] at hn
    simp only [parseBlocks, List.append_assoc]
    rw [readLong_some k hc]
    have y1 : BitVec.ofInt 64 (-(es.length : Int)) ≠ 0 := by
      intro h0; rw [h0] at hbits; simp at hbits; omega
    have y2 : ¬ 0 < (BitVec.ofInt 64 (-(es.length : Int))).toInt := by omega
    have y3 : -(BitVec.ofInt 64 (-(es.length : Int))) = BitVec.ofNat 64 es.length := by
      rw [BitVec.ofInt_neg]; simp
    have y4 : (BitVec.ofNat 64 es.length).toNat = es.length := by
      rw [BitVec.toNat_ofNat]; omega
    simp only [if_neg y1, if_neg y2, readLong_some k hs]
    simp only [parseBlocks.items, y3, y4]
    have y5 : ¬ (first = true ∧ ((BitVec.ofNat 64 es.length).toInt < 0 ∨ (lim : Int) < (BitVec.ofNat 64 es.length).toInt)) := by
      rintro ⟨hf, hx⟩
      have := hlim hf
      rw [BitVec.toInt_eq_toNat_cond, y4] at hx
      split at hx <;> omega
    rw [if_neg y5, ← hlen, parseRep_reads h1]
    simp only [Out.bind]
    rw [ih h2 m rest (by omega)]

/-! ### Data -/

section
variable {lim : Nat} {env : Env}

theorem looseAll_iff {t : Ty} : ∀ {ds es}, LooseAll k env lim ds t es ↔ TakenAll (fun d e => Loose k env lim d t e) ds es
  | [], es => Iff.rfl
  | d :: ds, es => by
    simp only [LooseAll, TakenAll, looseAll_iff]

theorem looseEntries_iff {t : Ty} : ∀ {kds es}, LooseEntries k env lim kds t es ↔
    TakenAll (fun (x : List Byte × Datum) e => ∃ c e', e = c ++ e' ∧ SomeBytes x.1 c ∧ Loose k env lim x.2 t e') kds es
  | [], es => Iff.rfl
  | (k, d) :: kds, es => by
    simp only [LooseEntries, TakenAll, looseEntries_iff]
    constructor
    · rintro ⟨c, e, es', rfl, h1, h2, h3⟩; exact ⟨_, es', rfl, ⟨c, e, rfl, h1, h2⟩, h3⟩
    · rintro ⟨_, es', rfl, ⟨c, e, rfl, h1, h2⟩, h3⟩; exact ⟨c, e, es', rfl, h1, h2, h3⟩

theorem lift_done {α : Type} {g : α → Datum} {x : Except Err (α × List Byte)} {d : Datum} {r' : List Byte} (h : lift g x = .done (d, r')) :
    ∃ a, x = .ok (a, r') ∧ d = g a := by
  cases x with
  | error e => cases h
  | ok y => obtain ⟨a, r⟩ := y; cases h; exact ⟨a, rfl, rfl⟩

theorem parseFields_taken {p : Ty → List Byte → Out (Datum × List Byte)} (hp : ∀ t, Takes (p t) fun d e => Loose k env lim d t e) :
    ∀ fs r ds r', parseFields p fs r = .done (ds, r') → ∃ e, r = e ++ r' ∧ LooseFields k env lim ds fs e
  | [], r, ds, r', h => by cases h; exact ⟨[], rfl, rfl, rfl⟩
  | f :: fs, r, ds, r', h => by
    obtain ⟨⟨d, r1⟩, h1, h⟩ := bind_done h
    obtain ⟨⟨ds', r2⟩, h2, h⟩ := bind_done h
    cases h
    obtain ⟨e, rfl, he⟩ := hp _ _ _ _ h1
    obtain ⟨e', h3, h4⟩ := parseFields_taken hp fs _ _ _ h2
    simp only at h3
    subst h3
    exact ⟨e ++ e', by simp, f, fs, e, e', rfl, he, h4, rfl⟩

/-- What is taken for a datum is what `Loose` says. -/
theorem parse_taken (k : Bool) : ∀ n t, Takes (parse (flatOps k) lim env n t) fun d e => Loose k env lim d t e := by
  intro n
  induction n with
  | zero => intro t r d r' h; simp [parse] at h
  | succ n ih =>
    intro t r d r' h
    unfold parse at h
    cases t with
    | null => cases h; exact ⟨[], rfl, rfl, rfl⟩
    | bool =>
      obtain ⟨b, h1, rfl⟩ := lift_done h
      cases r with
      | nil =>
        cases k with
        | false => obtain ⟨x, h2, _⟩ := readBool_iff.1 h1; cases h2
        | true => cases h1; exact ⟨[], rfl, rfl, .inr ⟨rfl, rfl, rfl⟩⟩
      | cons x r =>
        rw [readBool_cons] at h1
        cases h1
        exact ⟨[x], rfl, rfl, .inl ⟨x, rfl, rfl⟩⟩
    | int =>
      obtain ⟨v, h1, rfl⟩ := lift_done h
      obtain ⟨e, h2, h3⟩ := (readInt_iff _).1 h1
      exact ⟨e, h2, rfl, h3⟩
    | long =>
      obtain ⟨v, h1, rfl⟩ := lift_done h
      obtain ⟨e, h2, h3⟩ := (readLong_iff _).1 h1
      exact ⟨e, h2, rfl, h3⟩
    | float =>
      obtain ⟨v, h1, rfl⟩ := lift_done h
      obtain ⟨e, h2, h3⟩ := (readLe_iff _ (w := 32) (m := 4) (by decide)).1 h1
      exact ⟨e, h2, rfl, h3⟩
    | double =>
      obtain ⟨v, h1, rfl⟩ := lift_done h
      obtain ⟨e, h2, h3⟩ := (readLe_iff _ (w := 64) (m := 8) (by decide)).1 h1
      exact ⟨e, h2, rfl, h3⟩
    | bytes =>
      obtain ⟨v, h1, rfl⟩ := lift_done h
      obtain ⟨e, h2, h3⟩ := (readSized_iff _ _).1 h1
      exact ⟨e, h2, rfl, h3⟩
    | string =>
      obtain ⟨v, h1, rfl⟩ := lift_done h
      obtain ⟨e, h2, h3⟩ := (readSized_iff _ _).1 h1
      exact ⟨e, h2, rfl, h3⟩
    | array t =>
      obtain ⟨⟨ds, r1⟩, h1, h⟩ := bind_done h
      cases h
      obtain ⟨es, e, h2, h3, h4⟩ := parseBlocks_taken (ih t) _ _ _ _ _ _ _ h1
      exact ⟨e, h2, t, es, rfl, looseAll_iff.2 h3, h4⟩
    | map t =>
      obtain ⟨⟨ds, r1⟩, h1, h⟩ := bind_done h
      cases h
      obtain ⟨es, e, h2, h3, h4⟩ := parseBlocks_taken
        (P := fun (x : List Byte × Datum) e => ∃ c e', e = c ++ e' ∧ SomeBytes x.1 c ∧ Loose k env lim x.2 t e') (by
          intro r x r' hx
          unfold parseEntry at hx
          cases hk : readString (flatOps k) r with
          | error e => rw [hk] at hx; cases hx
          | ok y =>
            obtain ⟨k, r1⟩ := y
            rw [hk] at hx
            obtain ⟨⟨d, r2⟩, h1, hx⟩ := bind_done hx
            cases hx
            obtain ⟨c, rfl, hc⟩ := (readSized_iff _ _).1 hk
            obtain ⟨e, h2, h3⟩ := ih t _ _ _ h1
            subst h2
            exact ⟨c ++ e, by simp, c, e, rfl, hc, h3⟩) _ _ _ _ _ _ _ h1
      exact ⟨e, h2, t, es, rfl, looseEntries_iff.2 h3, h4⟩
    | union ts =>
      simp only at h
      cases h1 : readLong (flatOps k) r with
      | error e => rw [h1] at h; cases h
      | ok y =>
        obtain ⟨v, r1⟩ := y
        rw [h1] at h
        simp only at h
        cases h2 : atIndex ts v with
        | none => rw [h2] at h; cases h
        | some u =>
          rw [h2] at h
          obtain ⟨⟨d', r2⟩, h3, h⟩ := bind_done h
          cases h
          obtain ⟨c, rfl, hc⟩ := (readLong_iff _).1 h1
          obtain ⟨e, h4, h5⟩ := ih u _ _ _ h3
          subst h4
          unfold atIndex at h2
          split at h2
          · rename_i h0
            have hn : v.toInt = v.toNat := by
              rw [BitVec.toInt_eq_toNat_cond] at h0 ⊢; split at h0 <;> split <;> omega
            refine ⟨c ++ e, by simp, ts, u, c, e, rfl, ?_, ?_, h5, rfl⟩
            · rw [hn] at h2; simpa using h2
            · rw [← hn]; exact hc
          · cases h2
    | ref q =>
      simp only at h
      cases hq : env.find q with
      | none => rw [hq] at h; cases h
      | some df =>
        rw [hq] at h
        simp only [parseDef] at h
        cases hk : df.kind with
        | record fs =>
          rw [hk] at h
          obtain ⟨⟨ds, r1⟩, h1, h⟩ := bind_done h
          cases h
          obtain ⟨e, h2, h3⟩ := parseFields_taken ih _ _ _ _ h1
          exact ⟨e, h2, q, df, fs, rfl, hq, hk, h3⟩
        | enum ss dd =>
          rw [hk] at h
          obtain ⟨v, h1, rfl⟩ := lift_done h
          obtain ⟨e, h2, h3⟩ := (readLong_iff _).1 h1
          exact ⟨e, h2, q, df, ss, dd, rfl, hq, hk, h3⟩
        | fixed m =>
          rw [hk] at h
          obtain ⟨v, h1, rfl⟩ := lift_done h
          obtain ⟨h2, rfl⟩ := (readFixed_iff _).1 h1
          exact ⟨v, h2, q, df, rfl, hq, hk, rfl⟩
end

section
variable (k : Bool) {lim : Nat} (hl : lim < 2 ^ 63) (env : Env)
include hl

mutual
theorem parse_loose : ∀ (d : Datum) (t : Ty) (bs : List Byte), Loose false env lim d t bs →
    ∀ n, d.size ≤ n → ∀ rest, parse (flatOps k) lim env n t (bs ++ rest) = .done (d, rest)
  | .null, t, bs, h, n, hn, rest => by
    obtain ⟨m, rfl⟩ : ∃ m, n = m + 1 := ⟨n - 1, by simp [Datum.size] at hn; omega⟩
    obtain ⟨rfl, rfl⟩ := h; rfl
  | .bool b, t, bs, h, n, hn, rest => by
    obtain ⟨m, rfl⟩ : ∃ m, n = m + 1 := ⟨n - 1, by simp [Datum.size] at hn; omega⟩
    rw [Loose] at h
    simp only [Bool.false_eq_true, false_and, or_false] at h
    obtain ⟨rfl, x, rfl, rfl⟩ := h
    simp only [parse, List.cons_append, readBool_cons, lift, Bool.beq_eq_decide_eq, List.nil_append]
  | .int v, t, bs, h, n, hn, rest => by
    obtain ⟨m, rfl⟩ : ∃ m, n = m + 1 := ⟨n - 1, by simp [Datum.size] at hn; omega⟩
    obtain ⟨rfl, h⟩ := h
    simp only [parse, (readInt_iff k).2 ⟨bs, rfl, h⟩, lift]
  | .long v, t, bs, h, n, hn, rest => by
    obtain ⟨m, rfl⟩ : ∃ m, n = m + 1 := ⟨n - 1, by simp [Datum.size] at hn; omega⟩
    obtain ⟨rfl, h⟩ := h
    simp only [parse, (readLong_iff k).2 ⟨bs, rfl, h⟩, lift]
  | .float v, t, bs, h, n, hn, rest => by
    obtain ⟨m, rfl⟩ : ∃ m, n = m + 1 := ⟨n - 1, by simp [Datum.size] at hn; omega⟩
    obtain ⟨rfl, h⟩ := h
    have : readFloat (flatOps k) (bs ++ rest) = .ok (v, rest) := (readLe_iff k (by decide)).2 ⟨bs, rfl, h⟩
    simp only [parse, this, lift]
  | .double v, t, bs, h, n, hn, rest => by
    obtain ⟨m, rfl⟩ : ∃ m, n = m + 1 := ⟨n - 1, by simp [Datum.size] at hn; omega⟩
    obtain ⟨rfl, h⟩ := h
    have : readDouble (flatOps k) (bs ++ rest) = .ok (v, rest) := (readLe_iff k (by decide)).2 ⟨bs, rfl, h⟩
    simp only [parse, this, lift]
  | .bytes x, t, bs, h, n, hn, rest => by
    obtain ⟨m, rfl⟩ : ∃ m, n = m + 1 := ⟨n - 1, by simp [Datum.size] at hn; omega⟩
    obtain ⟨rfl, h⟩ := h
    simp only [parse, readBytes, (readSized_iff _ k).2 ⟨bs, rfl, h⟩, lift]
  | .string x, t, bs, h, n, hn, rest => by
    obtain ⟨m, rfl⟩ : ∃ m, n = m + 1 := ⟨n - 1, by simp [Datum.size] at hn; omega⟩
    obtain ⟨rfl, h⟩ := h
    simp only [parse, readString, (readSized_iff _ k).2 ⟨bs, rfl, h⟩, lift]
  | .fixed x, t, bs, h, n, hn, rest => by
    obtain ⟨m, rfl⟩ : ∃ m, n = m + 1 := ⟨n - 1, by simp [Datum.size] at hn; omega⟩
    obtain ⟨q, d, rfl, hq, hd, rfl⟩ := h
    simp only [parse, hq, parseDef, hd, (readFixed_iff k).2 ⟨rfl, rfl⟩, lift]
  | .enum i, t, bs, h, n, hn, rest => by
    obtain ⟨m, rfl⟩ : ∃ m, n = m + 1 := ⟨n - 1, by simp [Datum.size] at hn; omega⟩
    obtain ⟨q, d, ss, dflt, rfl, hq, hd, h⟩ := h
    simp only [parse, hq, parseDef, hd, readLong_some k h, lift, h.bits]
  | .array ds, t, bs, h, n, hn, rest => by
    obtain ⟨m, rfl⟩ : ∃ m, n = m + 1 := ⟨n - 1, by simp [Datum.size] at hn; omega⟩
    obtain ⟨item, es, rfl, he, hb⟩ := h
    simp only [Datum.size] at hn
    have := Datum.length_le_sizes ds
    have hr := parse_looseAll ds item es he m (by omega)
    simp only [parse]
    rw [parseBlocks_some k hl hb hr m rest (by omega)]; rfl
  | .map kds, t, bs, h, n, hn, rest => by
    obtain ⟨m, rfl⟩ : ∃ m, n = m + 1 := ⟨n - 1, by simp [Datum.size] at hn; omega⟩
    obtain ⟨item, es, rfl, he, hb⟩ := h
    simp only [Datum.size] at hn
    have := Datum.length_le_entrySizes kds
    have hr := parse_looseEntries kds item es he m (by omega)
    simp only [parse]
    rw [parseBlocks_some k hl hb hr m rest (by omega)]; rfl
  | .union i d, t, bs, h, n, hn, rest => by
    obtain ⟨m, rfl⟩ : ∃ m, n = m + 1 := ⟨n - 1, by simp [Datum.size] at hn; omega⟩
    obtain ⟨ts, u, c, e, rfl, hu, hc, he, rfl⟩ := h
    simp only [Datum.size] at hn
    simp only [parse, List.append_assoc]
    rw [readLong_some k hc]
    have hr := hc.range
    have h1 : (BitVec.ofInt 64 (i : Int)).toNat = i := by simp; omega
    have h3 : atIndex ts (BitVec.ofInt 64 (i : Int)) = some u := by
      unfold atIndex
      rw [hc.bits, if_pos (by omega)]
      simpa using hu
    simp only [h3, h1]
    rw [parse_loose d u e he m (by omega) rest]; rfl
  | .record ds, t, bs, h, n, hn, rest => by
    obtain ⟨m, rfl⟩ : ∃ m, n = m + 1 := ⟨n - 1, by simp [Datum.size] at hn; omega⟩
    obtain ⟨q, d, fs, rfl, hq, hd, he⟩ := h
    simp only [Datum.size] at hn
    simp only [parse, hq, parseDef, hd]
    rw [parse_looseFields ds fs bs he m (by omega) rest]; rfl

theorem parse_looseAll : ∀ (ds : List Datum) (t : Ty) (es : List (List Byte)), LooseAll false env lim ds t es →
    ∀ n, Datum.sizes ds ≤ n → ReadsAll (parse (flatOps k) lim env n t) ds es
  | [], t, es, h, n, hn => h
  | d :: ds, t, es, h, n, hn => by
    obtain ⟨e, es', rfl, h1, h2⟩ := h
    simp only [Datum.sizes] at hn
    exact ⟨e, es', rfl, fun rest => parse_loose d t e h1 n (by omega) rest,
      parse_looseAll ds t es' h2 n (by omega)⟩

theorem parse_looseEntries : ∀ (kds : List (List Byte × Datum)) (t : Ty) (es : List (List Byte)),
    LooseEntries false env lim kds t es → ∀ n, Datum.entrySizes kds ≤ n →
      ReadsAll (parseEntry (flatOps k) (parse (flatOps k) lim env n t)) kds es
  | [], t, es, h, n, hn => h
  | (key, d) :: kds, t, es, h, n, hn => by
    obtain ⟨c, e, es', rfl, h0, h1, h2⟩ := h
    simp only [Datum.entrySizes] at hn
    refine ⟨_, es', rfl, fun rest => ?_, parse_looseEntries kds t es' h2 n (by omega)⟩
    simp only [parseEntry, readString, List.append_assoc]
    rw [(readSized_iff _ k).2 ⟨c, rfl, h0⟩]
    simp only
    rw [parse_loose d t e h1 n (by omega) rest]; rfl

theorem parse_looseFields : ∀ (ds : List Datum) (fs : List Field) (bs : List Byte),
    LooseFields false env lim ds fs bs → ∀ n, Datum.sizes ds ≤ n → ∀ rest,
      parseFields (parse (flatOps k) lim env n) fs (bs ++ rest) = .done (ds, rest)
  | [], fs, bs, h, n, hn, rest => by obtain ⟨rfl, rfl⟩ := h; rfl
  | d :: ds, fs, bs, h, n, hn, rest => by
    obtain ⟨f, fs', e, bs', rfl, h1, h2, rfl⟩ := h
    simp only [Datum.sizes] at hn
    simp only [parseFields, List.append_assoc]
    rw [parse_loose d f.ty e h1 n (by omega)]
    simp only [Out.bind]
    rw [parse_looseFields ds fs' bs' h2 n (by omega) rest]
end
end

section
variable {lim : Nat} {env : Env}

theorem reads_loose_iff (hl : lim < 2 ^ 63) {t : Ty} {bs rest : List Byte} {d : Datum} :
    ReadsAs false lim env t bs (some (d, rest)) ↔ ∃ e, bs = e ++ rest ∧ Loose false env lim d t e := by
  constructor
  · rintro ⟨n, h⟩; exact parse_taken false n t _ _ _ h
  · rintro ⟨e, rfl, h⟩; exact ⟨d.size, parse_loose false hl env d t e h _ (Nat.le_refl _) rest⟩

/-- What is not an encoding of Avro is accepted in addition only. -/
theorem loose_of_enc (hl : lim < 2 ^ 63) {d : Datum} {t : Ty} {e : List Byte} (h : Enc env d t e) (hw : d.within lim) :
    Loose false env lim d t e := by
  obtain ⟨e', h1, h2⟩ := (reads_loose_iff hl).1 (reads_enc (k := false) hl h hw [])
  rw [List.append_nil, List.append_nil] at h1
  exact h1 ▸ h2

/-- The encoding is not that of another datum, and no part of it is an encoding. -/
theorem loose_unique (hl : lim < 2 ^ 63) {d d' : Datum} {t : Ty} {e e' x x' : List Byte} (h : Loose false env lim d t e)
    (h' : Loose false env lim d' t e') (he : e ++ x = e' ++ x') : d = d' ∧ e = e' ∧ x = x' := by
  have h1 := (reads_loose_iff (rest := x) hl).2 ⟨e, rfl, h⟩
  have h2 := (reads_loose_iff (rest := x') hl).2 ⟨e', rfl, h'⟩
  rw [he] at h1
  have := h1.det h2
  simp only [Option.some.injEq, Prod.mk.injEq] at this
  obtain ⟨rfl, rfl⟩ := this
  exact ⟨rfl, List.append_cancel_right he, rfl⟩

theorem reads_taken {k : Bool} {t : Ty} {bs rest : List Byte} {d : Datum} (h : ReadsAs k lim env t bs (some (d, rest))) :
    ∃ e, bs = e ++ rest ∧ Loose k env lim d t e := by
  obtain ⟨n, h⟩ := h; exact parse_taken k n t _ _ _ h

variable {k : Bool}

theorem blocks_exist : ∀ es : List (List Byte), ∃ bs, Blocks es bs
  | [] => ⟨_, .done⟩
  | e :: es => ⟨_, by have := Blocks.counted (e :: es) [] _ (by simp) .done; rwa [List.append_nil] at this⟩

mutual
/-- Up to indices of enums, what is accepted denotes a datum of the schema. -/
theorem enc_of_loose : ∀ (d : Datum) (t : Ty) (e : List Byte), Loose k env lim d t e → EnumsIn env d t → ∃ e', Enc env d t e'
  | .null, t, e, h, _ => ⟨[], h.1, rfl⟩
  | .bool b, t, e, h, _ => ⟨_, h.1, rfl⟩
  | .int b, t, e, h, _ => ⟨_, h.1, rfl⟩
  | .long b, t, e, h, _ => ⟨_, h.1, rfl⟩
  | .float b, t, e, h, _ => ⟨_, h.1, rfl⟩
  | .double b, t, e, h, _ => ⟨_, h.1, rfl⟩
  | .bytes b, t, e, h, _ => ⟨_, h.1, rfl⟩
  | .string b, t, e, h, _ => ⟨_, h.1, rfl⟩
  | .fixed x, t, e, h, _ => ⟨e, h⟩
  | .enum i, t, e, h, hi => by
    obtain ⟨q, d, ss, dd, h1, h2, h3, h4, h5⟩ := hi
    exact ⟨_, q, d, ss, dd, h1, h2, h3, h4, h5, rfl⟩
  | .array ds, t, e, h, hi => by
    obtain ⟨item, es, rfl, h1, h2⟩ := h
    obtain ⟨item', h3, h4⟩ := hi
    cases h3
    obtain ⟨es', h5⟩ := encAll_of_loose ds item es h1 h4
    obtain ⟨bs, h6⟩ := blocks_exist es'
    exact ⟨bs, item, es', rfl, h5, h6⟩
  | .map ds, t, e, h, hi => by
    obtain ⟨item, es, rfl, h1, h2⟩ := h
    obtain ⟨item', h3, h4⟩ := hi
    cases h3
    obtain ⟨es', h5⟩ := encEntries_of_loose ds item es h1 h4
    obtain ⟨bs, h6⟩ := blocks_exist es'
    exact ⟨bs, item, es', rfl, h5, h6⟩
  | .union i d, t, e, h, hi => by
    obtain ⟨ts, u, c, e1, rfl, h1, h2, h3, rfl⟩ := h
    obtain ⟨ts', u', h4, h5, h6⟩ := hi
    cases h4
    rw [h1] at h5
    cases h5
    have : ∃ e', Enc env d u e' := by
      rcases h6 with h6 | h6
      · have hu : u = .null := by cases u <;> first | rfl | cases h6
        subst hu
        cases d <;> simp [Loose] at h3
        exact ⟨[], rfl, rfl⟩
      · exact enc_of_loose d u e1 h3 h6
    obtain ⟨e', he⟩ := this
    exact ⟨_, ts, u, e', rfl, h1, he, rfl⟩
  | .record ds, t, e, h, hi => by
    obtain ⟨q, d, fs, rfl, h1, h2, h3⟩ := h
    obtain ⟨q', d', fs', h4, h5, h6, h7⟩ := hi
    cases h4
    rw [h1] at h5
    cases h5
    rw [h2] at h6
    cases h6
    obtain ⟨e', he⟩ := encFields_of_loose ds fs e h3 h7
    exact ⟨e', q, d, fs, rfl, h1, h2, he⟩
theorem encAll_of_loose : ∀ (ds : List Datum) (t : Ty) (es : List (List Byte)), LooseAll k env lim ds t es → ItemsIn env ds t →
    ∃ es', EncAll env ds t es'
  | [], t, es, h, _ => ⟨[], rfl⟩
  | d :: ds, t, es, h, hi => by
    obtain ⟨e, es', rfl, h1, h2⟩ := h
    obtain ⟨x, hx⟩ := enc_of_loose d t e h1 hi.1
    obtain ⟨xs, hxs⟩ := encAll_of_loose ds t es' h2 hi.2
    exact ⟨_, x, xs, rfl, hx, hxs⟩
theorem encEntries_of_loose : ∀ (ds : List (List Byte × Datum)) (t : Ty) (es : List (List Byte)), LooseEntries k env lim ds t es →
    EntriesIn env ds t → ∃ es', EncEntries env ds t es'
  | [], t, es, h, _ => ⟨[], rfl⟩
  | (key, d) :: ds, t, es, h, hi => by
    obtain ⟨c, e, es', rfl, h0, h1, h2⟩ := h
    obtain ⟨x, hx⟩ := enc_of_loose d t e h1 hi.1
    obtain ⟨xs, hxs⟩ := encEntries_of_loose ds t es' h2 hi.2
    exact ⟨_, x, xs, rfl, hx, hxs⟩
theorem encFields_of_loose : ∀ (ds : List Datum) (fs : List Field) (bs : List Byte), LooseFields k env lim ds fs bs → FieldsIn env ds fs →
    ∃ bs', EncFields env ds fs bs'
  | [], fs, bs, h, _ => ⟨[], h.1, rfl⟩
  | d :: ds, fs, bs, h, hi => by
    obtain ⟨f, fs', e, bs', rfl, h1, h2, rfl⟩ := h
    obtain ⟨f', fs'', h3, h4, h5⟩ := hi
    cases h3
    obtain ⟨x, hx⟩ := enc_of_loose d f.ty e h1 h4
    obtain ⟨xs, hxs⟩ := encFields_of_loose ds fs' bs' h2 h5
    exact ⟨_, f, fs', x, xs, rfl, hx, hxs, rfl⟩
end
end
end Verif
