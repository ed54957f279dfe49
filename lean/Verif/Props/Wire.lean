import Verif.Wire.Lemmas2
import Verif.Wire.Chunked
/-
Properties C01-C07, C10 and the primitive part of C08, C09.

`flatOps true` is a reader offering `ReadByte`, `flatOps false` a plain `io.Reader`.
`Trace.bytes` are the bytes a writer produced, `bw` says whether it writes to a
`vm.ByteWriter`. The specification is `Verif/Spec/Wire.lean`.
-/
namespace Verif.Props
open Verif

/-- C01 -/
theorem long_roundtrip (bw k : Bool) (x : BitVec 64) (rest : List Byte) :
    readLong (flatOps k) ((writeLong bw x).bytes ++ rest) = .ok (x, rest) := by
  simp only [writeLong, Trace.bytes, emit_bytes]; exact readLong_encodeInt k x rest

example : readLong (flatOps true) ((writeLong false (BitVec.ofInt 64 (-300))).bytes ++ [7]) =
    .ok (BitVec.ofInt 64 (-300), [7]) := long_roundtrip _ _ _ _

/-- C02 -/
theorem int_roundtrip (bw k : Bool) (x : BitVec 32) (rest : List Byte) :
    readInt (flatOps k) ((writeInt bw x).bytes ++ rest) = .ok (x, rest) := by
  simp only [writeInt, Trace.bytes, emit_bytes]; exact readInt_encodeInt k x rest

example : readInt (flatOps true) ((writeInt false (BitVec.ofInt 32 (-2147483648))).bytes ++ [7]) =
    .ok (BitVec.ofInt 32 (-2147483648), [7]) := int_roundtrip _ _ _ _

/-- C03: `WriteLong` writes the Avro encoding of the number. -/
theorem long_wire_form (bw : Bool) (x : BitVec 64) :
    (writeLong bw x).bytes.map BitVec.toNat = Spec.long x.toInt := by
  simp only [writeLong, Trace.bytes, emit_bytes, encodeInt_eq, zigzag64_toNat, ofNats,
    List.map_map, Spec.long]
  generalize Spec.zigzag x.toInt = n
  have : ∀ m ∈ Spec.varint n, m < 256 := by
    induction n using Nat.strongRecOn with
    | ind n ih =>
      rw [Spec.varint]
      split
      · simp; omega
      · intro m hm
        simp at hm
        rcases hm with h | h
        · omega
        · exact ih _ (by omega) m h
  conv => rhs; rw [← List.map_id (Spec.varint n)]
  apply List.map_congr_left
  intro m hm
  simp [this m hm]

/-- C03: `WriteInt` writes the Avro encoding of the number. -/
theorem int_wire_form (bw : Bool) (x : BitVec 32) :
    (writeInt bw x).bytes.map BitVec.toNat = Spec.long x.toInt := by
  have := long_wire_form bw (x.signExtend 64)
  rw [BitVec.toInt_signExtend_of_le (by omega)] at this
  rw [← this]
  simp only [writeInt, writeLong, Trace.bytes, emit_bytes, zigzag32_eq_zigzag64]

example : (writeLong true (BitVec.ofInt 64 (-65))).bytes.map BitVec.toNat = [129, 1] := by
  rw [long_wire_form]
  show Spec.long (-65) = _
  simp [Spec.long, Spec.zigzag, Spec.varint]

/-- The specified digits denote the number again. -/
theorem varint_value (n : Nat) : Spec.varintValue (Spec.varint n) = n := by
  induction n using Nat.strongRecOn with
  | ind n ih =>
    rw [Spec.varint]
    split
    · simp [Spec.varintValue]; omega
    · rw [Spec.varintValue, ih _ (by omega)]; omega

/-- C03: shape of the digits: continuation bits everywhere but on the last digit, no
superfluous last digit. -/
theorem varint_shape (n : Nat) :
    ∃ front last, Spec.varint n = front ++ [last] ∧ last < 128 ∧
      (∀ b ∈ front, 128 ≤ b ∧ b < 256) ∧ (front ≠ [] → last ≠ 0) := by
  induction n using Nat.strongRecOn with
  | ind n ih =>
    rw [Spec.varint]
    split
    · exact ⟨[], n, rfl, by omega, by simp, by simp⟩
    · rename_i h
      obtain ⟨front, last, h1, h2, h3, h4⟩ := ih (n / 128) (by omega)
      refine ⟨(128 + n % 128) :: front, last, by rw [h1]; rfl, h2, ?_, ?_⟩
      · intro b hb; simp at hb
        rcases hb with hb | hb
        · omega
        · exact h3 b hb
      · intro _ hl
        subst hl
        by_cases hf : front = []
        · subst hf
          have := varint_value (n / 128)
          rw [h1] at this; simp [Spec.varintValue] at this
          omega
        · exact h4 hf rfl

theorem varint_length_le (k n : Nat) (h : n < 128 ^ (k + 1)) : (Spec.varint n).length ≤ k + 1 := by
  induction k generalizing n with
  | zero => rw [Spec.varint, if_pos (by simpa using h)]; simp
  | succ k ih =>
    rw [Spec.varint]
    split
    · simp
    · simp only [List.length_cons]
      have : n / 128 < 128 ^ (k + 1) := by
        rw [Nat.div_lt_iff_lt_mul (by omega)]; rwa [Nat.pow_succ] at h
      have := ih _ this; omega

/-- C03: at most ten bytes for a long. -/
theorem long_length (bw : Bool) (x : BitVec 64) : (writeLong bw x).bytes.length ≤ 10 := by
  simp only [writeLong, Trace.bytes, emit_bytes, encodeInt_eq, ofNats, List.length_map]
  have := (zigzag64 x).isLt
  exact varint_length_le 9 _ (by omega)

/-- C03: at most five bytes for an int. -/
theorem int_length (bw : Bool) (x : BitVec 32) : (writeInt bw x).bytes.length ≤ 5 := by
  simp only [writeInt, Trace.bytes, emit_bytes, encodeInt_eq, ofNats, List.length_map]
  have : (zigzag32 x).toNat < 2 ^ 32 := by
    unfold zigzag32
    rw [BitVec.toNat_setWidth]
    have := ((x <<< 1) ^^^ (x.sshiftRight 31)).isLt
    omega
  exact varint_length_le 4 _ (by omega)

/-- C04 -/
theorem double_roundtrip (bw k : Bool) (x : BitVec 64) (rest : List Byte) :
    readDouble (flatOps k) ((writeDouble bw x).bytes ++ rest) = .ok (x, rest) := by
  simp only [writeDouble, Trace.bytes, emit_bytes]; exact readDouble_encode k x rest

/-- C04 -/
theorem float_roundtrip (bw k : Bool) (x : BitVec 32) (rest : List Byte) :
    readFloat (flatOps k) ((writeFloat bw x).bytes ++ rest) = .ok (x, rest) := by
  simp only [writeFloat, Trace.bytes, emit_bytes]; exact readFloat_encode k x rest

/-- C04: eight bytes, least significant first. -/
theorem double_wire_form (bw : Bool) (x : BitVec 64) :
    (writeDouble bw x).bytes.map BitVec.toNat = Spec.littleEndian 8 x.toNat := by
  simp [writeDouble, Trace.bytes, emit_bytes, encodeFloat_eq, ofNats, Spec.littleEndian]

/-- C04: four bytes, least significant first. -/
theorem float_wire_form (bw : Bool) (x : BitVec 32) :
    (writeFloat bw x).bytes.map BitVec.toNat = Spec.littleEndian 4 x.toNat := by
  have := x.isLt
  simp [writeFloat, Trace.bytes, emit_bytes, encodeFloat_eq, ofNats, Spec.littleEndian,
    Nat.mod_eq_of_lt (show x.toNat < 18446744073709551616 by omega)]

-- a NaN with payload
example : readDouble (flatOps false) ((writeDouble true 0x7ff8000000abcdef#64).bytes ++ [1]) =
    .ok (0x7ff8000000abcdef#64, [1]) := double_roundtrip _ _ _ _
example : readFloat (flatOps false) ((writeFloat true 0x7fc12345#32).bytes ++ [1]) =
    .ok (0x7fc12345#32, [1]) := float_roundtrip _ _ _ _

/-- C05 -/
theorem bytes_roundtrip (bw k : Bool) (bs rest : List Byte) (h : bs.length ≤ 2147483647) :
    readBytes (flatOps k) ((writeBytes bw bs).bytes ++ rest) = .ok (bs, rest) := by
  simp only [writeBytes, writeLong, Trace.bytes, List.flatten_append, emit_bytes,
    List.flatten_cons, List.flatten_nil, List.append_nil, List.append_assoc]
  exact readSized_encode _ k bs rest h

/-- C05 -/
theorem string_roundtrip (bw k : Bool) (bs rest : List Byte) (h : bs.length ≤ 2147483647) :
    readString (flatOps k) ((writeString bw bs).bytes ++ rest) = .ok (bs, rest) := by
  simp only [writeString, writeLong, Trace.bytes, List.flatten_append, emit_bytes,
    List.flatten_cons, List.flatten_nil, List.append_nil, List.append_assoc]
  exact readSized_encode _ k bs rest h

example : ([1, 255, 0] : List Byte).length ≤ 2147483647 := by decide

/-- C05: a length prefix outside 0 .. 2^31-1 is refused. -/
theorem length_refused (bw k : Bool) (n : BitVec 64) (rest : List Byte)
    (h : n.toInt < 0 ∨ 2147483647 < n.toInt) :
    readBytes (flatOps k) ((writeLong bw n).bytes ++ rest) = .error .bytesRange ∧
    readString (flatOps k) ((writeLong bw n).bytes ++ rest) = .error .stringRange := by
  simp only [writeLong, Trace.bytes, emit_bytes]
  exact ⟨readSized_range _ k n rest h, readSized_range _ k n rest h⟩

example : (BitVec.ofInt 64 (-1)).toInt < 0 ∨ 2147483647 < (BitVec.ofInt 64 (-1)).toInt := by decide
example : (2147483648#64).toInt < 0 ∨ 2147483647 < (2147483648#64).toInt := by decide

/-- C05, whatever bytes the prefix was spelt with: what is returned has the announced
length, which is in range. -/
theorem bytes_length_in_range (k : Bool) (r bs rest : List Byte)
    (h : readBytes (flatOps k) r = .ok (bs, rest)) : bs.length ≤ 2147483647 := by
  unfold readBytes readSized at h
  cases hl : readLong (flatOps k) r with
  | error e => rw [hl] at h; cases h
  | ok p =>
    obtain ⟨n, r'⟩ := p
    rw [hl, bindOk] at h
    split at h
    · cases h
    · split at h
      · cases h; simp
      · rename_i hr _
        rw [flatOps_readFull, flatReadFull] at h
        split at h
        · cases h
          rw [List.length_take]
          have h1 := BitVec.toInt_eq_toNat_cond n
          have := n.isLt
          split at h1 <;> omega
        · split at h <;> cases h

/-- C06 -/
theorem bool_roundtrip (k b : Bool) (rest : List Byte) :
    readBool (flatOps k) ((writeBool b).bytes ++ rest) = .ok (b, rest) := by
  cases b <;> simp [writeBool, Trace.bytes, readBool_cons]

/-- C06: any byte is accepted; only 1 is true. -/
theorem bool_bytes (k : Bool) (b : Byte) (rest : List Byte) :
    readBool (flatOps k) (b :: rest) = .ok (decide (b = 1), rest) := by
  rw [readBool_cons]; rfl

/-- C06: true is written as 1, false as 0. -/
theorem bool_wire_form (b : Bool) :
    (writeBool b).bytes.map BitVec.toNat = [if b then 1 else 0] := by cases b <;> rfl

/-- C07: an int's bytes read as a long give the same number. -/
theorem int_read_as_long (bw k : Bool) (x : BitVec 32) (rest : List Byte) :
    ∃ y, readLong (flatOps k) ((writeInt bw x).bytes ++ rest) = .ok (y, rest) ∧
      y.toInt = x.toInt := by
  refine ⟨x.signExtend 64, ?_, BitVec.toInt_signExtend_of_le (by omega)⟩
  simp only [writeInt, Trace.bytes, emit_bytes, zigzag32_eq_zigzag64]
  exact readLong_encodeInt k _ rest

/-! ### C10: truncation -/

/-- A proper prefix of what a reader that never looks ahead consumes is not enough. -/
theorem truncated_error {α : Type} {f : List Byte → Except Err (α × List Byte)}
    (hf : NoLook f) (enc : List Byte) (v : α) (h : f enc = .ok (v, []))
    (p q : List Byte) (hpq : enc = p ++ q) (hq : q ≠ []) : ∃ e, f p = .error e := by
  cases hp : f p with
  | error e => exact ⟨e, rfl⟩
  | ok x =>
    obtain ⟨u, r'⟩ := x
    have := (hf p u r' hp).1 q
    rw [← hpq, h] at this
    injection this with this
    injection this with _ h2
    simp at h2
    exact absurd h2.2 hq

/-- C10 for int. -/
theorem int_truncated (bw k : Bool) (x : BitVec 32) (p q : List Byte)
    (h : (writeInt bw x).bytes = p ++ q) (hq : q ≠ []) :
    ∃ e, readInt (flatOps k) p = .error e :=
  truncated_error (noLook_readInt k) _ x (by have := int_roundtrip bw k x []; rwa [List.append_nil] at this) p q h hq

/-- C10 for long. -/
theorem long_truncated (bw k : Bool) (x : BitVec 64) (p q : List Byte)
    (h : (writeLong bw x).bytes = p ++ q) (hq : q ≠ []) :
    ∃ e, readLong (flatOps k) p = .error e :=
  truncated_error (noLook_readLong k) _ x (by have := long_roundtrip bw k x []; rwa [List.append_nil] at this) p q h hq

/-- C10 for float. -/
theorem float_truncated (bw k : Bool) (x : BitVec 32) (p q : List Byte)
    (h : (writeFloat bw x).bytes = p ++ q) (hq : q ≠ []) :
    ∃ e, readFloat (flatOps k) p = .error e :=
  truncated_error (noLook_readFloat k) _ x (by have := float_roundtrip bw k x []; rwa [List.append_nil] at this) p q h hq

/-- C10 for double. -/
theorem double_truncated (bw k : Bool) (x : BitVec 64) (p q : List Byte)
    (h : (writeDouble bw x).bytes = p ++ q) (hq : q ≠ []) :
    ∃ e, readDouble (flatOps k) p = .error e :=
  truncated_error (noLook_readDouble k) _ x (by have := double_roundtrip bw k x []; rwa [List.append_nil] at this) p q h hq

/-- C10 for bytes. -/
theorem bytes_truncated (bw k : Bool) (bs p q : List Byte) (hl : bs.length ≤ 2147483647)
    (h : (writeBytes bw bs).bytes = p ++ q) (hq : q ≠ []) :
    ∃ e, readBytes (flatOps k) p = .error e :=
  truncated_error (noLook_readSized _ k) _ bs
    (by have := bytes_roundtrip bw k bs [] hl; rwa [List.append_nil] at this) p q h hq

/-- C10 for string. -/
theorem string_truncated (bw k : Bool) (bs p q : List Byte) (hl : bs.length ≤ 2147483647)
    (h : (writeString bw bs).bytes = p ++ q) (hq : q ≠ []) :
    ∃ e, readString (flatOps k) p = .error e :=
  truncated_error (noLook_readSized _ k) _ bs
    (by have := string_roundtrip bw k bs [] hl; rwa [List.append_nil] at this) p q h hq

/-- C10 for boolean, plain readers only: with `ReadByte` it fails, see
`bool_truncated_accepted`. -/
theorem bool_truncated_partial (b : Bool) (p q : List Byte)
    (h : (writeBool b).bytes = p ++ q) (hq : q ≠ []) :
    ∃ e, readBool (flatOps false) p = .error e :=
  truncated_error noLook_readBool_plain _ b
    (by have := bool_roundtrip false b []; rwa [List.append_nil] at this) p q h hq

/-- The code violates C10 for booleans on readers offering `ReadByte` (readers.go:18-19):
nothing at all decodes as `false`. -/
theorem bool_truncated_accepted : readBool (flatOps true) [] = .ok (false, []) := by rfl

-- the hypotheses of the truncation theorems are met
example : (writeLong true 300#64).bytes = [216#8] ++ [4#8] := by
  simp only [writeLong, Trace.bytes, emit_bytes, encodeInt_eq,
    show (zigzag64 300#64).toNat = 600 from by decide]
  simp [Spec.varint, ofNats]

/-! ### C08, primitives: the outcome does not depend on how the data arrives -/

/-- C08: int, long, float, double, bytes, string and fixed on any reader that delivers
the bytes `view r` give what they give on those bytes. -/
theorem primitives_on_any_reader {R : Type} (o : ReaderOps R) (view : R → List Byte)
    (h : o.Delivers view) (r : R) :
    vmap view (readInt o r) = readInt (flatOps false) (view r) ∧
    vmap view (readLong o r) = readLong (flatOps false) (view r) ∧
    vmap view (readFloat o r) = readFloat (flatOps false) (view r) ∧
    vmap view (readDouble o r) = readDouble (flatOps false) (view r) ∧
    vmap view (readBytes o r) = readBytes (flatOps false) (view r) ∧
    vmap view (readString o r) = readString (flatOps false) (view r) ∧
    (∀ n, vmap view (readFixed o n r) = readFixed (flatOps false) n (view r)) := by
  have hv : ∀ k (r : List Byte), readVar (flatOps k) r = readVar (flatOps false) r := by
    intro k r
    unfold readVar
    suffices ∀ (fuel : Nat) (v0 : BitVec 64) (s0 : Nat) (r : List Byte),
        readVarLoop (flatOps k) fuel v0 s0 r = readVarLoop (flatOps false) fuel v0 s0 r from
      this _ _ _ _
    intro fuel
    induction fuel with
    | zero => intros; rfl
    | succ fuel ih =>
      intro v0 s0 r
      rw [readVarLoop, readVarLoop, flat_next_kind]
      cases (flatOps false).next r with
      | error e => rfl
      | ok p => obtain ⟨b, r'⟩ := p; simp only; split
                · rfl
                · exact ih _ _ _
  have hl : ∀ k (r : List Byte), readLong (flatOps k) r = readLong (flatOps false) r := by
    intro k r; unfold readLong; rw [hv]
  refine ⟨?_, ?_, ?_, ?_, ?_, ?_, ?_⟩
  · rw [sim_readInt h]; unfold readInt; rw [hv]
  · rw [sim_readLong h, hl]
  · rw [sim_readFloat h]; rfl
  · rw [sim_readDouble h]; rfl
  · unfold readBytes; rw [sim_readSized h]; unfold readSized; rw [hl]; rfl
  · unfold readString; rw [sim_readSized h]; unfold readSized; rw [hl]; rfl
  · intro n; rw [sim_readFixed h]; rfl

/-- Any cutting into pieces, with or without `ReadByte`, is such a reader. -/
theorem chunked_delivers (k : Bool) : (chunkOps k).Delivers List.flatten := chunkOps_delivers k

example : readLong (chunkOps false) [[216#8], [], [4#8, 9#8]] = .ok (300#64, [[9#8]]) := by decide

/-! ### C09, primitives -/

/-- C09: a `ByteWriter` gets the same bytes as any other writer. -/
theorem writers_agree (bw bw' : Bool) :
    (∀ x, (writeInt bw x).bytes = (writeInt bw' x).bytes) ∧
    (∀ x, (writeLong bw x).bytes = (writeLong bw' x).bytes) ∧
    (∀ x, (writeFloat bw x).bytes = (writeFloat bw' x).bytes) ∧
    (∀ x, (writeDouble bw x).bytes = (writeDouble bw' x).bytes) ∧
    (∀ x, (writeBytes bw x).bytes = (writeBytes bw' x).bytes) ∧
    (∀ x, (writeString bw x).bytes = (writeString bw' x).bytes) := by
  refine ⟨?_, ?_, ?_, ?_, ?_, ?_⟩ <;> intro x <;>
    simp [writeInt, writeLong, writeFloat, writeDouble, writeBytes, writeString, Trace.bytes,
      emit_bytes]

/-! ### what the varint readers accept beyond the specification (D2) -/

/-- The code accepts over-long varints and drops the excess bits: eleven bytes decode as 0. -/
theorem overlong_varint_accepted :
    readLong (flatOps true) (List.replicate 10 0x80#8 ++ [0x7e#8]) = .ok (0, []) := by decide

end Verif.Props
