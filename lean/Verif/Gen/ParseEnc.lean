import Verif.Spec.Encoding
import Verif.Gen.Parse
import Verif.Wire.Lemmas2
/-
Every encoding of a datum reads back as that datum.
-/
namespace Verif
set_option linter.unusedSimpArgs false
set_option linter.unusedVariables false

theorem octets_eq : octets = ofNats := rfl

/-! ### primitives -/

theorem bmod_id (x : Int) (h : -(2 ^ 63) ≤ x) (h' : x < 2 ^ 63) : (BitVec.ofInt 64 x).toInt = x := by
  rw [BitVec.toInt_ofInt, Int.bmod_eq_of_le] <;> omega

theorem encLong_eq (x : BitVec 64) : encLong x.toInt = encodeInt (zigzag64 x) := by
  rw [encodeInt_eq, zigzag64_toNat]; rfl

theorem encLong_eq' (x : Int) (h : -(2 ^ 63) ≤ x) (h' : x < 2 ^ 63) :
    encLong x = encodeInt (zigzag64 (BitVec.ofInt 64 x)) := by
  rw [← encLong_eq, bmod_id x h h']

theorem readLong_encLong (k : Bool) (x : Int) (h : -(2 ^ 63) ≤ x) (h' : x < 2 ^ 63) (rest : List Byte) :
    readLong (flatOps k) (encLong x ++ rest) = .ok (BitVec.ofInt 64 x, rest) := by
  rw [encLong_eq' x h h', readLong_encodeInt]

theorem readLong_encLong_some (k : Bool) (x : Int) (rest : List Byte) :
    ∃ v, readLong (flatOps k) (encLong x ++ rest) = .ok (v, rest) := by
  refine ⟨unzigzag64 (BitVec.ofNat 64 (Spec.zigzag x)), ?_⟩
  simp only [readLong, encLong, octets_eq, Spec.long, readVar_varint, mapOk]

theorem readInt_encLong (k : Bool) (x : BitVec 32) (rest : List Byte) :
    readInt (flatOps k) (encLong x.toInt ++ rest) = .ok (x, rest) := by
  have : encLong x.toInt = encodeInt (zigzag32 x) := by
    rw [zigzag32_eq_zigzag64, ← encLong_eq, BitVec.toInt_signExtend_of_le (by omega)]
  rw [this, readInt_encodeInt]

theorem readSized_enc (e : Err) (k : Bool) (x rest : List Byte) (h : x.length ≤ 2147483647) :
    readSized e (flatOps k) (encLong x.length ++ x ++ rest) = .ok (x, rest) := by
  have := readSized_encode e k x rest h
  rw [encLong_eq' _ (by omega) (by omega)]
  rw [List.append_assoc]
  exact this

/-! ### collections -/

/-- `p` reads `d` off `e`. -/
def Reads {α : Type} (p : List Byte → Out (α × List Byte)) (d : α) (e : List Byte) : Prop :=
  ∀ rest, p (e ++ rest) = .done (d, rest)

/-- Element by element. -/
def ReadsAll {α : Type} (p : List Byte → Out (α × List Byte)) : List α → List (List Byte) → Prop
  | [], es => es = []
  | d :: ds, es => ∃ e es', es = e :: es' ∧ Reads p d e ∧ ReadsAll p ds es'

theorem readsAll_length {α : Type} {p : List Byte → Out (α × List Byte)} :
    ∀ {ds es}, ReadsAll p ds es → ds.length = es.length
  | [], es, h => by cases h; rfl
  | d :: ds, es, h => by
    obtain ⟨e, es', rfl, -, h'⟩ := h
    simp [readsAll_length h']

theorem readsAll_split {α : Type} {p : List Byte → Out (α × List Byte)} :
    ∀ {es es' ds}, ReadsAll p ds (es ++ es') →
      ∃ ds₁ ds₂, ds = ds₁ ++ ds₂ ∧ ReadsAll p ds₁ es ∧ ReadsAll p ds₂ es'
  | [], es', ds, h => ⟨[], ds, rfl, rfl, h⟩
  | e :: es, es', ds, h => by
    cases ds with
    | nil => cases h
    | cons d ds =>
      obtain ⟨e1, es1, he, hr, hrest⟩ := h
      cases he
      obtain ⟨ds₁, ds₂, rfl, h1, h2⟩ := readsAll_split hrest
      exact ⟨d :: ds₁, ds₂, rfl, ⟨_, _, rfl, hr, h1⟩, h2⟩

theorem parseRep_reads {α : Type} {p : List Byte → Out (α × List Byte)} :
    ∀ {ds es}, ReadsAll p ds es → ∀ rest,
      parseRep p ds.length (es.flatten ++ rest) = .done (ds, rest)
  | [], es, h, rest => by cases h; rfl
  | d :: ds, es, h, rest => by
    obtain ⟨e, es', rfl, hr, h'⟩ := h
    simp only [List.length_cons, parseRep, List.flatten_cons, List.append_assoc]
    rw [hr]; simp only [Out.bind]
    rw [parseRep_reads h']

theorem bv_ofInt_pos (m : Nat) (h : 0 < m) (h' : m < 2 ^ 63) :
    BitVec.ofInt 64 (m : Int) ≠ 0 ∧ 0 < (BitVec.ofInt 64 (m : Int)).toInt ∧
      (BitVec.ofInt 64 (m : Int)).toNat = m ∧ (BitVec.ofInt 64 (m : Int)).toInt = m := by
  have h1 := bmod_id (m : Int) (by omega) (by omega)
  refine ⟨?_, by omega, ?_, h1⟩
  · intro hc; rw [hc] at h1; simp at h1; omega
  · simp; omega

theorem bv_ofInt_neg (m : Nat) (h : 0 < m) (h' : m < 2 ^ 63) :
    BitVec.ofInt 64 (-(m : Int)) ≠ 0 ∧ ¬ 0 < (BitVec.ofInt 64 (-(m : Int))).toInt ∧
      - (BitVec.ofInt 64 (-(m : Int))) = BitVec.ofInt 64 (m : Int) := by
  have h1 := bmod_id (-(m : Int)) (by omega) (by omega)
  refine ⟨?_, by omega, ?_⟩
  · intro hc; rw [hc] at h1; simp at h1; omega
  · rw [BitVec.ofInt_neg]; simp

theorem parseBlocks_reads {α : Type} {p : List Byte → Out (α × List Byte)} (k : Bool) {lim : Nat}
    (hl : lim < 2 ^ 63) {es : List (List Byte)} {bs : List Byte} (hb : Blocks es bs) :
    ∀ {ds}, ReadsAll p ds es → ds.length ≤ lim → ∀ n first rest, ds.length + 1 ≤ n →
      parseBlocks (flatOps k) lim p n first (bs ++ rest) = .done (ds, rest) := by
  induction hb with
  | done =>
    intro ds h hd n first rest hn
    cases ds with
    | cons d ds => obtain ⟨_, _, h, _⟩ := h; cases h
    | nil =>
      obtain ⟨m, rfl⟩ : ∃ m, n = m + 1 := ⟨n - 1, by simp at hn; omega⟩
      simp only [parseBlocks, readLong_encLong k 0 (by omega) (by omega)]
      rfl
  | counted es rest' bs hne hb ih =>
    intro ds h hd n first rest hn
    obtain ⟨m, rfl⟩ : ∃ m, n = m + 1 := ⟨n - 1, by omega⟩
    obtain ⟨ds₁, ds₂, rfl, h1, h2⟩ := readsAll_split h
    have hlen := readsAll_length h1
    have hpos : 0 < es.length := by cases es <;> simp_all
    simp only [List.length_append] at hd hn
    simp only [parseBlocks, List.append_assoc]
    rw [readLong_encLong k _ (by omega) (by omega)]
    obtain ⟨z1, z2, z3, z4⟩ := bv_ofInt_pos es.length hpos (by omega)
    simp only [if_neg z1, if_pos z2]
    simp only [parseBlocks.items, z3, z4]
    rw [if_neg (by omega), ← hlen, parseRep_reads h1]
    simp only [Out.bind]
    rw [ih h2 (by omega) m false rest (by omega)]
  | sized es rest' bs hne hb ih =>
    intro ds h hd n first rest hn
    obtain ⟨m, rfl⟩ : ∃ m, n = m + 1 := ⟨n - 1, by omega⟩
    obtain ⟨ds₁, ds₂, rfl, h1, h2⟩ := readsAll_split h
    have hlen := readsAll_length h1
    have hpos : 0 < es.length := by cases es <;> simp_all
    simp only [List.length_append] at hd hn
    simp only [parseBlocks, List.append_assoc]
    rw [readLong_encLong k _ (by omega) (by omega)]
    obtain ⟨z1, z2, z3, z4⟩ := bv_ofInt_pos es.length hpos (by omega)
    obtain ⟨y1, y2, y3⟩ := bv_ofInt_neg es.length hpos (by omega)
    obtain ⟨v, hv⟩ := readLong_encLong_some k es.flatten.length (es.flatten ++ (bs ++ rest))
    simp only [if_neg y1, if_neg y2, hv]
    simp only [parseBlocks.items, y3, z3, z4]
    rw [if_neg (by omega), ← hlen, parseRep_reads h1]
    simp only [Out.bind]
    rw [ih h2 (by omega) m false rest (by omega)]

/-! ### data -/

theorem Datum.size_pos : ∀ d : Datum, 0 < d.size := by
  intro d; cases d <;> simp [Datum.size] <;> omega

theorem Datum.length_le_sizes : ∀ ds : List Datum, ds.length ≤ Datum.sizes ds
  | [] => by simp
  | d :: ds => by
    have := d.size_pos; have := Datum.length_le_sizes ds
    simp [Datum.sizes]; omega

theorem Datum.length_le_entrySizes : ∀ ds : List (List Byte × Datum), ds.length ≤ Datum.entrySizes ds
  | [] => by simp
  | (_, d) :: ds => by
    have := d.size_pos; have := Datum.length_le_entrySizes ds
    simp [Datum.entrySizes]; omega

section
variable (k : Bool) {lim : Nat} (hl : lim < 2 ^ 63) (env : Env)
include hl

mutual
theorem parse_enc : ∀ (d : Datum) (t : Ty) (bs : List Byte), Enc env d t bs → d.within lim →
    ∀ n, d.size ≤ n → ∀ rest, parse (flatOps k) lim env n t (bs ++ rest) = .done (d, rest)
  | .null, t, bs, h, hw, n, hn, rest => by
    obtain ⟨m, rfl⟩ : ∃ m, n = m + 1 := ⟨n - 1, by simp [Datum.size] at hn; omega⟩
    obtain ⟨rfl, rfl⟩ := h; rfl
  | .bool b, t, bs, h, hw, n, hn, rest => by
    obtain ⟨m, rfl⟩ : ∃ m, n = m + 1 := ⟨n - 1, by simp [Datum.size] at hn; omega⟩
    obtain ⟨rfl, rfl⟩ := h
    cases b <;> simp [parse, octets, readBool_cons, lift] <;> decide
  | .int v, t, bs, h, hw, n, hn, rest => by
    obtain ⟨m, rfl⟩ : ∃ m, n = m + 1 := ⟨n - 1, by simp [Datum.size] at hn; omega⟩
    obtain ⟨rfl, rfl⟩ := h
    simp [parse, readInt_encLong, lift]
  | .long v, t, bs, h, hw, n, hn, rest => by
    obtain ⟨m, rfl⟩ : ∃ m, n = m + 1 := ⟨n - 1, by simp [Datum.size] at hn; omega⟩
    obtain ⟨rfl, rfl⟩ := h
    simp [parse, encLong_eq, readLong_encodeInt, lift]
  | .float v, t, bs, h, hw, n, hn, rest => by
    obtain ⟨m, rfl⟩ : ∃ m, n = m + 1 := ⟨n - 1, by simp [Datum.size] at hn; omega⟩
    obtain ⟨rfl, rfl⟩ := h
    have h1 : octets (Spec.littleEndian 4 v.toNat) = encodeFloat 4 (v.setWidth 64) := by
      have := v.isLt
      rw [encodeFloat_eq]
      simp [Spec.littleEndian, octets, ofNats,
        Nat.mod_eq_of_lt (show v.toNat < 18446744073709551616 by omega)]
    simp only [parse]
    rw [h1, readFloat_encode]; rfl
  | .double v, t, bs, h, hw, n, hn, rest => by
    obtain ⟨m, rfl⟩ : ∃ m, n = m + 1 := ⟨n - 1, by simp [Datum.size] at hn; omega⟩
    obtain ⟨rfl, rfl⟩ := h
    have h1 : octets (Spec.littleEndian 8 v.toNat) = encodeFloat 8 v := by
      rw [encodeFloat_eq]; rfl
    simp only [parse]
    rw [h1, readDouble_encode]; rfl
  | .bytes x, t, bs, h, hw, n, hn, rest => by
    obtain ⟨m, rfl⟩ : ∃ m, n = m + 1 := ⟨n - 1, by simp [Datum.size] at hn; omega⟩
    obtain ⟨rfl, rfl⟩ := h
    simp only [parse, readBytes]
    rw [readSized_enc _ k x rest hw]; rfl
  | .string x, t, bs, h, hw, n, hn, rest => by
    obtain ⟨m, rfl⟩ : ∃ m, n = m + 1 := ⟨n - 1, by simp [Datum.size] at hn; omega⟩
    obtain ⟨rfl, rfl⟩ := h
    simp only [parse, readString]
    rw [readSized_enc _ k x rest hw]; rfl
  | .fixed x, t, bs, h, hw, n, hn, rest => by
    obtain ⟨m, rfl⟩ : ∃ m, n = m + 1 := ⟨n - 1, by simp [Datum.size] at hn; omega⟩
    obtain ⟨q, d, rfl, hq, hd, rfl⟩ := h
    have h1 : ¬ ((bs.length : Int) < 0) := by omega
    simp only [parse, hq, parseDef, hd, readFixed, if_neg h1]
    simp [flatOps, flatReadFull, lift]
  | .enum i, t, bs, h, hw, n, hn, rest => by
    obtain ⟨m, rfl⟩ : ∃ m, n = m + 1 := ⟨n - 1, by simp [Datum.size] at hn; omega⟩
    obtain ⟨q, d, ss, dflt, rfl, hq, hd, h0, hi, rfl⟩ := h
    simp only [Datum.within] at hw
    simp only [parse, hq, parseDef, hd]
    rw [readLong_encLong k i (by omega) hw]
    simp only [lift, bmod_id i (by omega) hw]
  | .array ds, t, bs, h, hw, n, hn, rest => by
    obtain ⟨m, rfl⟩ : ∃ m, n = m + 1 := ⟨n - 1, by simp [Datum.size] at hn; omega⟩
    obtain ⟨item, es, rfl, he, hb⟩ := h
    simp only [Datum.size] at hn
    have := Datum.length_le_sizes ds
    have hr := parse_encAll ds item es he hw.2 m (by omega)
    simp only [parse]
    rw [parseBlocks_reads k hl hb hr hw.1 m true rest (by omega)]; rfl
  | .map kds, t, bs, h, hw, n, hn, rest => by
    obtain ⟨m, rfl⟩ : ∃ m, n = m + 1 := ⟨n - 1, by simp [Datum.size] at hn; omega⟩
    obtain ⟨item, es, rfl, he, hb⟩ := h
    simp only [Datum.size] at hn
    have := Datum.length_le_entrySizes kds
    have hr := parse_encEntries kds item es he hw.2 m (by omega)
    simp only [parse]
    rw [parseBlocks_reads k hl hb hr hw.1 m true rest (by omega)]; rfl
  | .union i d, t, bs, h, hw, n, hn, rest => by
    obtain ⟨m, rfl⟩ : ∃ m, n = m + 1 := ⟨n - 1, by simp [Datum.size] at hn; omega⟩
    obtain ⟨ts, u, e, rfl, hu, he, rfl⟩ := h
    simp only [Datum.size] at hn
    simp only [parse, List.append_assoc]
    rw [readLong_encLong k i (by omega) (by have := hw.1; omega)]
    have h1 : (BitVec.ofInt 64 (i : Int)).toNat = i := by simp; have := hw.1; omega
    have h2 := bmod_id (i : Int) (by omega) (by have := hw.1; omega)
    have h3 : atIndex ts (BitVec.ofInt 64 (i : Int)) = some u := by
      unfold atIndex
      rw [h2, if_pos (by omega)]
      simpa using hu
    simp only [h3, h1]
    rw [parse_enc d u e he hw.2 m (by omega) rest]; rfl
  | .record ds, t, bs, h, hw, n, hn, rest => by
    obtain ⟨m, rfl⟩ : ∃ m, n = m + 1 := ⟨n - 1, by simp [Datum.size] at hn; omega⟩
    obtain ⟨q, d, fs, rfl, hq, hd, he⟩ := h
    simp only [Datum.size] at hn
    simp only [parse, hq, parseDef, hd]
    rw [parse_encFields ds fs bs he hw m (by omega) rest]; rfl

theorem parse_encAll : ∀ (ds : List Datum) (t : Ty) (es : List (List Byte)), EncAll env ds t es →
    Datum.allWithin lim ds → ∀ n, Datum.sizes ds ≤ n →
      ReadsAll (parse (flatOps k) lim env n t) ds es
  | [], t, es, h, hw, n, hn => h
  | d :: ds, t, es, h, hw, n, hn => by
    obtain ⟨e, es', rfl, h1, h2⟩ := h
    simp only [Datum.sizes] at hn
    exact ⟨e, es', rfl, fun rest => parse_enc d t e h1 hw.1 n (by omega) rest,
      parse_encAll ds t es' h2 hw.2 n (by omega)⟩

theorem parse_encEntries : ∀ (kds : List (List Byte × Datum)) (t : Ty) (es : List (List Byte)),
    EncEntries env kds t es → Datum.entriesWithin lim kds → ∀ n, Datum.entrySizes kds ≤ n →
      ReadsAll (parseEntry (flatOps k) (parse (flatOps k) lim env n t)) kds es
  | [], t, es, h, hw, n, hn => h
  | (key, d) :: kds, t, es, h, hw, n, hn => by
    obtain ⟨e, es', rfl, h1, h2⟩ := h
    simp only [Datum.entrySizes] at hn
    refine ⟨_, es', rfl, fun rest => ?_, parse_encEntries kds t es' h2 hw.2.2 n (by omega)⟩
    simp only [parseEntry, readString]
    rw [List.append_assoc, readSized_enc _ k key (e ++ rest) hw.1]
    simp only
    rw [parse_enc d t e h1 hw.2.1 n (by omega) rest]; rfl

theorem parse_encFields : ∀ (ds : List Datum) (fs : List Field) (bs : List Byte),
    EncFields env ds fs bs → Datum.allWithin lim ds → ∀ n, Datum.sizes ds ≤ n → ∀ rest,
      parseFields (parse (flatOps k) lim env n) fs (bs ++ rest) = .done (ds, rest)
  | [], fs, bs, h, hw, n, hn, rest => by obtain ⟨rfl, rfl⟩ := h; rfl
  | d :: ds, fs, bs, h, hw, n, hn, rest => by
    obtain ⟨f, fs', e, bs', rfl, h1, h2, rfl⟩ := h
    simp only [Datum.sizes] at hn
    simp only [parseFields, List.append_assoc]
    rw [parse_enc d f.ty e h1 hw.1 n (by omega)]
    simp only [Out.bind]
    rw [parse_encFields ds fs' bs' h2 hw.2 n (by omega) rest]
end
end
end Verif
