import Verif.Wire.Lemmas
/-
Helper lemmas: floats, sized data, truncation, no look-ahead, reader simulation.
-/
namespace Verif

/-! ### floats -/

theorem encodeFloat_eq (n : Nat) (v : BitVec 64) :
    encodeFloat n v = ofNats (Spec.littleEndian n v.toNat) := by
  induction n generalizing v with
  | zero => rfl
  | succ n ih =>
    rw [encodeFloat, Spec.littleEndian, ofNats, List.map_cons, ih]
    congr 1
    · apply BitVec.eq_of_toNat_eq
      rw [BitVec.toNat_setWidth, BitVec.toNat_and, BitVec.toNat_ofNat]
      have : (255 : BitVec 64).toNat = 2 ^ 8 - 1 := rfl
      rw [this, Nat.and_two_pow_sub_one_eq_mod]
    · rw [ofNats]; congr 2
      simp [BitVec.toNat_ushiftRight, Nat.shiftRight_eq_div_pow]

theorem littleEndian_length (n m : Nat) : (Spec.littleEndian n m).length = n := by
  induction n generalizing m with
  | zero => rfl
  | succ n ih => simp [Spec.littleEndian, ih]

theorem encodeFloat_length (n : Nat) (v : BitVec 64) : (encodeFloat n v).length = n := by
  rw [encodeFloat_eq]; simp [ofNats, littleEndian_length]

theorem leNat_littleEndian (n m : Nat) : leNat (ofNats (Spec.littleEndian n m)) = m % 256 ^ n := by
  induction n generalizing m with
  | zero => simp [Spec.littleEndian, ofNats, leNat, Nat.mod_one]
  | succ n ih =>
    rw [Spec.littleEndian, ofNats, List.map_cons, leNat]
    have := ih (m / 256)
    rw [ofNats] at this
    rw [this, BitVec.toNat_ofNat, Nat.pow_succ' (n := n) (m := 256), Nat.mod_mul]
    omega

theorem flatOps_readFull (k : Bool) : (flatOps k).readFull = flatReadFull := rfl

theorem flatReadFull_append (a rest : List Byte) :
    flatReadFull (a ++ rest) a.length = .ok (a, rest) := by
  simp [flatReadFull]

theorem flatReadFull_append' (a rest : List Byte) (n : Nat) (h : n = a.length) :
    flatReadFull (a ++ rest) n = .ok (a, rest) := by
  subst h; exact flatReadFull_append a rest

theorem readDouble_encode (k : Bool) (v : BitVec 64) (rest : List Byte) :
    readDouble (flatOps k) (encodeFloat 8 v ++ rest) = .ok (v, rest) := by
  unfold readDouble
  rw [flatOps_readFull, flatReadFull_append' _ _ _ (encodeFloat_length 8 v).symm]
  simp only [mapOk, encodeFloat_eq, leNat_littleEndian]
  have := v.isLt
  rw [Nat.mod_eq_of_lt (by simpa using this)]
  simp

theorem readFloat_encode (k : Bool) (v : BitVec 32) (rest : List Byte) :
    readFloat (flatOps k) (encodeFloat 4 (v.setWidth 64) ++ rest) = .ok (v, rest) := by
  unfold readFloat
  rw [flatOps_readFull, flatReadFull_append' _ _ _ (encodeFloat_length 4 _).symm]
  simp only [mapOk, encodeFloat_eq, leNat_littleEndian]
  have := v.isLt
  rw [BitVec.toNat_setWidth, Nat.mod_eq_of_lt (by omega : v.toNat < 2 ^ 64),
    Nat.mod_eq_of_lt (by simpa using this)]
  simp

/-! ### sized data -/

theorem readSized_encode (e : Err) (k : Bool) (bs rest : List Byte) (h : bs.length ≤ 2147483647) :
    readSized e (flatOps k)
      (encodeInt (zigzag64 (BitVec.ofNat 64 bs.length)) ++ (bs ++ rest)) = .ok (bs, rest) := by
  unfold readSized
  rw [readLong_encodeInt, bindOk]
  have hn : (BitVec.ofNat 64 bs.length).toNat = bs.length := by
    rw [BitVec.toNat_ofNat]; omega
  have hi : (BitVec.ofNat 64 bs.length).toInt = bs.length := by
    rw [BitVec.toInt_eq_toNat_cond, hn, if_pos (by omega)]
  rw [if_neg (by omega)]
  split
  · rename_i h0
    have : bs.length = 0 := by have := congrArg BitVec.toNat h0; rw [hn] at this; simpa using this
    have : bs = [] := List.eq_nil_of_length_eq_zero this
    subst this; simp
  · rw [hn]; exact flatReadFull_append _ _

theorem readSized_range (e : Err) (k : Bool) (n : BitVec 64) (rest : List Byte)
    (h : n.toInt < 0 ∨ 2147483647 < n.toInt) :
    readSized e (flatOps k) (encodeInt (zigzag64 n) ++ rest) = .error e := by
  unfold readSized
  rw [readLong_encodeInt, bindOk]
  rw [if_pos h]

/-! ### no look-ahead: success does not depend on what follows -/

/-- `f` never looks beyond the bytes it consumes. -/
def NoLook {α : Type} (f : List Byte → Except Err (α × List Byte)) : Prop :=
  ∀ r v r', f r = .ok (v, r') → (∀ x, f (r ++ x) = .ok (v, r' ++ x)) ∧ r'.length ≤ r.length

theorem noLook_next (k : Bool) : NoLook (flatOps k).next := by
  intro r v r' h
  cases r with
  | nil => rw [next_flat_nil] at h; cases h
  | cons b r =>
    rw [next_flat_cons] at h; cases h
    exact ⟨fun x => by rw [List.cons_append, next_flat_cons], by simp⟩

theorem next_flat_ok {k : Bool} {r : List Byte} {b : Byte} {r' : List Byte}
    (h : (flatOps k).next r = .ok (b, r')) : r = b :: r' := by
  cases r with
  | nil => rw [next_flat_nil] at h; cases h
  | cons c r => rw [next_flat_cons] at h; cases h; rfl

theorem readVarLoop_append (k : Bool) (x : List Byte) : ∀ (fuel fuel' : Nat) (v : BitVec 64) (s : Nat)
    (r r' : List Byte) (u : BitVec 64), fuel ≤ fuel' →
    readVarLoop (flatOps k) fuel v s r = .ok (u, r') →
    readVarLoop (flatOps k) fuel' v s (r ++ x) = .ok (u, r' ++ x) ∧ r'.length < r.length := by
  intro fuel
  induction fuel with
  | zero => intro fuel' v s r r' u _ h; simp [readVarLoop] at h
  | succ fuel ih =>
    intro fuel' v s r r' u hle h
    cases fuel' with
    | zero => omega
    | succ fuel' =>
    rw [readVarLoop] at h ⊢
    cases hn : (flatOps k).next r with
    | error e => rw [hn] at h; cases h
    | ok p =>
      obtain ⟨b, r1⟩ := p
      rw [hn] at h
      rw [next_flat_ok hn, List.cons_append, next_flat_cons]
      simp only at h ⊢
      split at h
      · rename_i hb; cases h; rw [if_pos hb]; simp
      · rename_i hb; rw [if_neg hb]
        have := ih fuel' _ _ _ _ _ (by omega) h
        exact ⟨this.1, by simp; omega⟩

/-- Fuel above the number of available bytes does not matter. -/
theorem readVarLoop_fuel (k : Bool) : ∀ (fuel fuel' : Nat) (v : BitVec 64) (s : Nat)
    (r : List Byte), r.length < fuel → r.length < fuel' →
    readVarLoop (flatOps k) fuel v s r = readVarLoop (flatOps k) fuel' v s r := by
  intro fuel
  induction fuel with
  | zero => intro fuel' v s r h _; omega
  | succ fuel ih =>
    intro fuel' v s r h h'
    cases fuel' with
    | zero => omega
    | succ fuel' =>
      rw [readVarLoop, readVarLoop]
      cases r with
      | nil => rw [next_flat_nil]
      | cons b r =>
        rw [next_flat_cons]
        simp only
        split
        · rfl
        · exact ih _ _ _ _ (by simpa using h) (by simpa using h')

theorem noLook_readVar (k : Bool) : NoLook (readVar (flatOps k)) := by
  intro r v r' h
  constructor
  · intro x
    exact (readVarLoop_append k x _ ((r ++ x).length + 1) 0 0 r r' v
      (by simp [flatOps]) h).1
  · have := (readVarLoop_append k [] _ (r.length + 1) 0 0 r r' v (by simp [flatOps]) h).2
    omega

theorem readVar_consumes {k : Bool} {r r' : List Byte} {v : BitVec 64}
    (h : readVar (flatOps k) r = .ok (v, r')) : r'.length < r.length :=
  (readVarLoop_append k [] _ (r.length + 1) 0 0 r r' v (by simp [flatOps]) h).2

theorem noLook_map {α β : Type} {f : List Byte → Except Err (α × List Byte)} (g : α → β)
    (h : NoLook f) : NoLook (fun r => mapOk g (f r)) := by
  intro r v r' he
  simp only at he
  cases hf : f r with
  | error e => rw [hf] at he; cases he
  | ok p =>
    obtain ⟨a, r1⟩ := p
    rw [hf] at he
    simp only [mapOk] at he
    have h3 := h r a r1 hf
    cases he
    exact ⟨fun x => by simp only; rw [h3.1 x]; rfl, h3.2⟩

theorem noLook_readInt (k : Bool) : NoLook (readInt (flatOps k)) :=
  noLook_map unzigzag32 (noLook_readVar k)

theorem noLook_readLong (k : Bool) : NoLook (readLong (flatOps k)) :=
  noLook_map unzigzag64 (noLook_readVar k)

theorem readLong_consumes {k : Bool} {r r' : List Byte} {v : BitVec 64}
    (h : readLong (flatOps k) r = .ok (v, r')) : r'.length < r.length := by
  unfold readLong at h
  cases hf : readVar (flatOps k) r with
  | error e => rw [hf] at h; cases h
  | ok p => obtain ⟨a, r1⟩ := p; rw [hf] at h; cases h; exact readVar_consumes hf

theorem noLook_readFull (n : Nat) : NoLook (fun r => flatReadFull r n) := by
  intro r v r' h
  simp only [flatReadFull] at h
  split at h
  · cases h
    constructor
    · intro x
      simp only [flatReadFull]
      rw [if_pos (by simp; omega), List.take_append_of_le_length (by omega),
        List.drop_append_of_le_length (by omega)]
    · simp
  · split at h <;> cases h

theorem noLook_readDouble (k : Bool) : NoLook (readDouble (flatOps k)) :=
  noLook_map (fun bs => BitVec.ofNat 64 (leNat bs)) (noLook_readFull 8)

theorem noLook_readFloat (k : Bool) : NoLook (readFloat (flatOps k)) :=
  noLook_map (fun bs => BitVec.ofNat 32 (leNat bs)) (noLook_readFull 4)

theorem noLook_readSized (e : Err) (k : Bool) : NoLook (readSized e (flatOps k)) := by
  intro r v r' h
  unfold readSized at h
  cases hf : readLong (flatOps k) r with
  | error e => rw [hf] at h; cases h
  | ok p =>
    obtain ⟨n, r1⟩ := p
    rw [hf, bindOk] at h
    have h1 := noLook_readLong k r n r1 hf
    split at h
    · cases h
    · rename_i hr
      split at h
      · rename_i h0
        cases h
        refine ⟨fun x => ?_, h1.2⟩
        unfold readSized
        rw [h1.1 x, bindOk]; rw [if_neg hr, if_pos h0]
      · rename_i h0
        have h2 := noLook_readFull n.toNat r1 v r' h
        refine ⟨fun x => ?_, by omega⟩
        unfold readSized
        rw [h1.1 x, bindOk]; rw [if_neg hr, if_neg h0]
        exact h2.1 x

theorem noLook_readFixed (k : Bool) (n : Int) : NoLook (readFixed (flatOps k) n) := by
  intro r v r' h
  unfold readFixed at h
  split at h
  · cases h
  · rename_i hn
    have h2 := noLook_readFull n.toNat r v r' h
    refine ⟨fun x => ?_, h2.2⟩
    unfold readFixed
    rw [if_neg hn]; exact h2.1 x

/-- Only for readers without `ReadByte`. -/
theorem noLook_readBool_plain : NoLook (readBool (flatOps false)) := by
  intro r v r' h
  cases r with
  | nil => simp [readBool, flatOps, flatReadFull] at h
  | cons b r =>
    simp [readBool, flatOps, flatReadFull] at h
    obtain ⟨h1, h2⟩ := h
    subst h1; subst h2
    exact ⟨fun x => by simp [readBool, flatOps, flatReadFull], by simp⟩

theorem readBool_cons (k : Bool) (b : Byte) (r : List Byte) :
    readBool (flatOps k) (b :: r) = .ok (b == 1, r) := by
  cases k <;> simp [readBool, flatOps, flatReadFull, flatReadByte]

/-! ### simulation of any reader that delivers the same bytes -/

section Sim
variable {R : Type} {o : ReaderOps R} {view : R → List Byte}

/-- Forget the reader, keep what it still has to deliver. -/
def vmap {α : Type} (view : R → List Byte) : Except Err (α × R) → Except Err (α × List Byte)
  | .error e => .error e
  | .ok (a, r) => .ok (a, view r)

theorem sim_readFull (h : o.Delivers view) (r : R) (n : Nat) :
    vmap view (o.readFull r n) = flatReadFull (view r) n := by
  unfold flatReadFull
  by_cases hn : n ≤ (view r).length
  · obtain ⟨r', h1, h2⟩ := h.readFull_ok r n hn
    rw [h1, if_pos hn]; simp [vmap, h2]
  · rw [h.readFull_err r n (by omega), if_neg hn]
    by_cases hv : view r = [] <;> simp [vmap, hv]

theorem sim_next (h : o.Delivers view) (r : R) :
    vmap view (o.next r) = (flatOps o.byteReader).next (view r) := by
  unfold ReaderOps.next
  cases hb : o.byteReader with
  | true =>
    simp only [flatOps, if_true]
    cases hv : view r with
    | nil =>
      have := h.readByte_nil r hv
      rcases hrb : o.readByte r with ⟨x, r'⟩
      rw [hrb] at this; simp only at this
      rw [this.1]; rfl
    | cons b bs =>
      have := h.readByte_cons r b bs hv
      rcases hrb : o.readByte r with ⟨x, r'⟩
      rw [hrb] at this; simp only at this
      rw [this.1]; simp [vmap, flatReadByte, this.2]
  | false =>
    have hs := sim_readFull h r 1
    simp only [flatOps, Bool.false_eq_true, if_false]
    rw [← hs]
    cases o.readFull r 1 with
    | error e => rfl
    | ok p => obtain ⟨bs, r'⟩ := p; cases bs <;> rfl

theorem sim_readBool (h : o.Delivers view) (r : R) :
    vmap view (readBool o r) = readBool (flatOps o.byteReader) (view r) := by
  unfold readBool
  cases hb : o.byteReader with
  | true =>
    simp only [flatOps, if_true]
    cases hv : view r with
    | nil =>
      have := h.readByte_nil r hv
      rcases hrb : o.readByte r with ⟨x, r'⟩
      rw [hrb] at this; simp only at this
      rw [this.1]; simp [vmap, flatReadByte, this.2]
    | cons b bs =>
      have := h.readByte_cons r b bs hv
      rcases hrb : o.readByte r with ⟨x, r'⟩
      rw [hrb] at this; simp only at this
      rw [this.1]; simp [vmap, flatReadByte, this.2]
  | false =>
    have hs := sim_readFull h r 1
    simp only [flatOps, Bool.false_eq_true, if_false]
    rw [← hs]
    cases o.readFull r 1 with
    | error e => rfl
    | ok p => obtain ⟨bs, r'⟩ := p; cases bs <;> rfl

theorem sim_readVarLoop (h : o.Delivers view) : ∀ (fuel : Nat) (v : BitVec 64) (s : Nat) (r : R),
    vmap view (readVarLoop o fuel v s r) = readVarLoop (flatOps o.byteReader) fuel v s (view r) := by
  intro fuel
  induction fuel with
  | zero => intro v s r; rfl
  | succ fuel ih =>
    intro v s r
    rw [readVarLoop, readVarLoop, ← sim_next h]
    cases o.next r with
    | error e => rfl
    | ok p =>
      obtain ⟨b, r'⟩ := p
      show vmap view (if _ then _ else _) = (if _ then _ else _)
      split
      · rfl
      · exact ih _ _ _

theorem sim_readVar (h : o.Delivers view) (r : R) :
    vmap view (readVar o r) = readVar (flatOps o.byteReader) (view r) := by
  unfold readVar
  rw [sim_readVarLoop h]
  apply readVarLoop_fuel
  · have := h.size_ge r; omega
  · simp [flatOps]

theorem vmap_mapOk {α β : Type} (g : α → β) (x : Except Err (α × R)) :
    vmap view (mapOk g x) = mapOk g (vmap view x) := by
  cases x <;> rfl

theorem vmap_bindOk {α β : Type} (x : Except Err (α × R)) (f : α → R → Except Err (β × R))
    (f' : α → List Byte → Except Err (β × List Byte))
    (h : ∀ a r, vmap view (f a r) = f' a (view r)) :
    vmap view (bindOk x f) = bindOk (vmap view x) f' := by
  cases x with
  | error e => rfl
  | ok p => obtain ⟨a, r⟩ := p; exact h a r

theorem sim_readInt (h : o.Delivers view) (r : R) :
    vmap view (readInt o r) = readInt (flatOps o.byteReader) (view r) := by
  unfold readInt
  rw [vmap_mapOk, sim_readVar h]

theorem sim_readLong (h : o.Delivers view) (r : R) :
    vmap view (readLong o r) = readLong (flatOps o.byteReader) (view r) := by
  unfold readLong
  rw [vmap_mapOk, sim_readVar h]

theorem sim_readDouble (h : o.Delivers view) (r : R) :
    vmap view (readDouble o r) = readDouble (flatOps o.byteReader) (view r) := by
  unfold readDouble
  rw [vmap_mapOk, sim_readFull h]; rfl

theorem sim_readFloat (h : o.Delivers view) (r : R) :
    vmap view (readFloat o r) = readFloat (flatOps o.byteReader) (view r) := by
  unfold readFloat
  rw [vmap_mapOk, sim_readFull h]; rfl

theorem sim_readSized (h : o.Delivers view) (e : Err) (r : R) :
    vmap view (readSized e o r) = readSized e (flatOps o.byteReader) (view r) := by
  unfold readSized
  rw [← sim_readLong h]
  apply vmap_bindOk
  intro n r'
  split
  · rfl
  · split
    · rfl
    · exact sim_readFull h _ _

theorem sim_readFixed (h : o.Delivers view) (n : Int) (r : R) :
    vmap view (readFixed o n r) = readFixed (flatOps o.byteReader) n (view r) := by
  unfold readFixed
  split
  · rfl
  · exact sim_readFull h _ _

end Sim

/-- The two kinds of flat reader agree on everything but `readBool` at the end of the data. -/
theorem flat_next_kind (k : Bool) (r : List Byte) : (flatOps k).next r = (flatOps false).next r := by
  cases r with
  | nil => simp [next_flat_nil]
  | cons b r => simp [next_flat_cons]

end Verif
