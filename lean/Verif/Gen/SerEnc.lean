import Verif.Gen.Serialize
import Verif.Gen.ParseEnc
/-
Serializing a value writes an encoding of a datum that represents it.
-/
namespace Verif
set_option linter.unusedSimpArgs false
set_option linter.unusedVariables false

section
variable (env : Env)

mutual
/-- The datum represents the Go value. A map is represented by its entries in any order. -/
def Repr : Val → Ty → Datum → Prop
  | .null, _, d => d = .null
  | .bool b, _, d => d = .bool b
  | .int v, _, d => d = .int v
  | .long v, _, d => d = .long v
  | .float v, _, d => d = .float v
  | .double v, _, d => d = .double v
  | .bytes v, _, d => d = .bytes v
  | .string v, _, d => d = .string v
  | .fixed v, _, d => d = .fixed v
  | .enum v, _, d => d = .enum v.toInt
  | .array vs, t, d => ∃ item ds, t = .array item ∧ ReprAll vs item ds ∧ d = .array ds
  | .map es, t, d => ∃ item kds kds', t = .map item ∧ ReprEntries es item kds ∧ kds.Perm kds' ∧
      d = .map kds'
  | .nil, t, d => ∃ ts i, t = .union ts ∧ nullIndex ts = some i ∧ d = .union i .null
  | .union _ none, _, _ => False
  | .union tag (some v), t, d => ∃ ts u d', t = .union ts ∧ ts[tag.toNat]? = some u ∧
      Repr v u d' ∧ d = .union tag.toNat d'
  | .record vs, t, d => ∃ q df fs ds, t = .ref q ∧ env.find q = some df ∧ df.kind = .record fs ∧
      ReprFields vs fs ds ∧ d = .record ds
def ReprAll : List Val → Ty → List Datum → Prop
  | [], _, ds => ds = []
  | v :: vs, t, ds => ∃ d ds', ds = d :: ds' ∧ Repr v t d ∧ ReprAll vs t ds'
def ReprEntries : List (List Byte × Val) → Ty → List (List Byte × Datum) → Prop
  | [], _, kds => kds = []
  | (k, v) :: es, t, kds => ∃ d kds', kds = (k, d) :: kds' ∧ Repr v t d ∧ ReprEntries es t kds'
def ReprFields : List Val → List Field → List Datum → Prop
  | [], _, ds => ds = []
  | v :: vs, fs, ds => ∃ f fs' d ds', fs = f :: fs' ∧ ds = d :: ds' ∧ Repr v f.ty d ∧
      ReprFields vs fs' ds'
end
end

/-! ### helpers -/

theorem writeLong_bytes (bw : Bool) (x : BitVec 64) : (writeLong bw x).bytes = encLong x.toInt := by
  simp only [writeLong, Trace.bytes, emit_bytes, encLong_eq]

theorem writeLong_nat (bw : Bool) (n : Nat) (h : n < 2 ^ 63) :
    (writeLong bw (BitVec.ofNat 64 n)).bytes = encLong n := by
  rw [writeLong_bytes]
  congr 1
  rw [BitVec.toInt_eq_toNat_of_lt] <;> simp <;> omega

theorem writeInt_bytes (bw : Bool) (x : BitVec 32) : (writeInt bw x).bytes = encLong x.toInt := by
  have : encLong x.toInt = encodeInt (zigzag32 x) := by
    rw [zigzag32_eq_zigzag64, ← encLong_eq, BitVec.toInt_signExtend_of_le (by omega)]
  simp only [writeInt, Trace.bytes, emit_bytes, this]

theorem writeString_bytes (bw : Bool) (x : List Byte) (h : x.length ≤ 2147483647) :
    (writeString bw x).bytes = encLong x.length ++ x := by
  rw [← writeLong_nat bw _ (by omega)]
  simp [writeString, Trace.bytes]

theorem writeBytes_bytes (bw : Bool) (x : List Byte) (h : x.length ≤ 2147483647) :
    (writeBytes bw x).bytes = encLong x.length ++ x := writeString_bytes bw x h

theorem writeFloat_bytes (bw : Bool) (v : BitVec 32) :
    (writeFloat bw v).bytes = octets (Spec.littleEndian 4 v.toNat) := by
  have := v.isLt
  simp [writeFloat, Trace.bytes, emit_bytes, encodeFloat_eq, Spec.littleEndian, octets, ofNats,
    Nat.mod_eq_of_lt (show v.toNat < 18446744073709551616 by omega)]

theorem writeDouble_bytes (bw : Bool) (v : BitVec 64) :
    (writeDouble bw v).bytes = octets (Spec.littleEndian 8 v.toNat) := by
  simp [writeDouble, Trace.bytes, emit_bytes, encodeFloat_eq]; rfl

theorem andThen_ok {a b : SerOut} (ha : a.2 = true) :
    (a.andThen b).2 = b.2 ∧ (a.andThen b).1 = a.1 ++ b.1 := by
  simp [SerOut.andThen, ha]

theorem nullIndexFrom_spec : ∀ (ts : List Ty) (i : Nat), ts.any Ty.isNull = true →
    ∃ j, nullIndexFrom i ts = some j ∧ i ≤ j ∧ ts[j - i]? = some .null ∧ j < i + ts.length
  | [], i, h => by simp at h
  | t :: ts, i, h => by
    simp only [nullIndexFrom]
    by_cases ht : t.isNull
    · rw [if_pos ht]
      refine ⟨i, rfl, Nat.le_refl _, ?_, by simp⟩
      have : t = .null := by cases t <;> simp_all [Ty.isNull]
      simp [this]
    · rw [if_neg ht]
      simp only [List.any_cons, Bool.or_eq_true] at h
      obtain ⟨j, h1, h2, h3, h4⟩ := nullIndexFrom_spec ts (i + 1) (by simpa [ht] using h)
      refine ⟨j, h1, by omega, ?_, by simp; omega⟩
      rw [show j - i = (j - (i + 1)) + 1 by omega]
      simpa using h3

theorem nullIndex_some {ts : List Ty} (h : (Ty.union ts).nullable = true) :
    ∃ j, nullIndex ts = some j ∧ ts[j]? = some .null ∧ j < ts.length := by
  obtain ⟨j, h1, _, h3, h4⟩ := nullIndexFrom_spec ts 0 h
  exact ⟨j, h1, by simpa using h3, by simpa using h4⟩

theorem nullIndexFrom_isNull : ∀ (ts : List Ty) (i j : Nat), nullIndexFrom i ts = some j →
    i ≤ j ∧ ts[j - i]? = some .null
  | [], i, j, h => by cases h
  | t :: ts, i, j, h => by
    simp only [nullIndexFrom] at h
    split at h
    · rename_i ht
      cases h
      have : t = .null := by cases t <;> simp_all [Ty.isNull]
      simp [this]
    · obtain ⟨h1, h2⟩ := nullIndexFrom_isNull ts (i + 1) j h
      refine ⟨by omega, ?_⟩
      rw [show j - i = (j - (i + 1)) + 1 by omega]
      simpa using h2

theorem nullIndex_isNull {ts : List Ty} {j : Nat} (h : nullIndex ts = some j) :
    ts[j]? = some .null := by simpa using (nullIndexFrom_isNull ts 0 j h).2

/-- A trace writes this encoding. -/
def SerOK (s : SerOut) (e : List Byte) : Prop := s.2 = true ∧ s.1.bytes = e

theorem SerOK.andThen {a b : SerOut} {e e' : List Byte} (ha : SerOK a e) (hb : SerOK b e') :
    SerOK (a.andThen b) (e ++ e') := by
  obtain ⟨h1, h2⟩ := andThen_ok (b := b) ha.1
  refine ⟨by rw [h1, hb.1], ?_⟩
  have h3 := ha.2
  have h4 := hb.2
  simp only [Trace.bytes] at h3 h4 ⊢
  rw [h2, List.flatten_append, h3, h4]

/-- One by one. -/
inductive SerOKs : List SerOut → List (List Byte) → Prop
  | nil : SerOKs [] []
  | cons {s e l es} : SerOK s e → SerOKs l es → SerOKs (s :: l) (e :: es)

theorem serOKs_map {α : Type} {f : α → SerOut} {g : α → List Byte} : ∀ {l : List α},
    (∀ x ∈ l, SerOK (f x) (g x)) → SerOKs (l.map f) (l.map g)
  | [], _ => .nil
  | x :: l, h => .cons (h x (by simp)) (serOKs_map fun y hy => h y (List.mem_cons_of_mem _ hy))

theorem serAll_ok : ∀ {l : List SerOut} {es : List (List Byte)}, SerOKs l es →
    SerOK (serAll l) es.flatten
  | [], _, h => by cases h; exact ⟨rfl, rfl⟩
  | s :: l, _, h => by
    cases h with
    | cons h1 h2 => exact h1.andThen (serAll_ok h2)

/-- One block, or none. -/
theorem serBlock_ok (bw : Bool) {l : List SerOut} {es : List (List Byte)} (n : Nat)
    (hn : n = es.length) (h : SerOKs l es) (hlim : es.length < 2 ^ 63) :
    ∃ bs, Blocks es bs ∧
      SerOK (if n = 0 then (writeLong bw (BitVec.ofNat 64 n), true)
        else SerOut.andThen (writeLong bw (BitVec.ofNat 64 n), true)
          ((serAll l).andThen (writeLong bw 0, true))) bs := by
  subst hn
  by_cases h0 : es.length = 0
  · have : es = [] := List.length_eq_zero_iff.1 h0
    subst this
    exact ⟨_, .done, by simp only [List.length_nil, if_true]; exact ⟨rfl, writeLong_nat bw 0 (by omega)⟩⟩
  · have hb := Blocks.counted es [] _ (by rintro rfl; simp at h0) .done
    rw [List.append_nil] at hb
    refine ⟨_, hb, ?_⟩
    rw [if_neg h0, List.append_assoc]
    refine SerOK.andThen ⟨rfl, writeLong_nat bw _ hlim⟩ (SerOK.andThen (serAll_ok h) ⟨rfl, ?_⟩)
    rw [writeLong_bytes]; rfl

/-! ### entries of maps in any order -/

/-- An entry, what it writes, and the datum. -/
structure EntryOK (env : Env) (lim : Nat) (item : Ty) (x : (List Byte × Datum) × List Byte) : Prop where
  enc : ∃ e, x.2 = encLong x.1.1.length ++ x.1.1 ++ e ∧ Enc env x.1.2 item e
  key : x.1.1.length ≤ 2147483647
  within : x.1.2.within lim

theorem encEntries_of {env : Env} {lim : Nat} {item : Ty} :
    ∀ {l : List ((List Byte × Datum) × List Byte)}, (∀ x ∈ l, EntryOK env lim item x) →
      EncEntries env (l.map (·.1)) item (l.map (·.2)) ∧ Datum.entriesWithin lim (l.map (·.1))
  | [], _ => ⟨rfl, trivial⟩
  | x :: l, h => by
    obtain ⟨e, he, hE⟩ := (h x (by simp)).enc
    obtain ⟨h1, h2⟩ := encEntries_of (l := l) fun y hy => h y (List.mem_cons_of_mem _ hy)
    exact ⟨⟨e, l.map (·.2), by simp [he], hE, h1⟩, (h x (by simp)).key, (h x (by simp)).within, h2⟩

theorem perm_of_map {α β : Type} {f : α → β} : ∀ {l' : List β} {l : List β}, l'.Perm l →
    ∀ {a : List α}, a.map f = l → ∃ a' : List α, a'.map f = l' ∧ a'.Perm a := by
  intro l' l h
  induction h with
  | nil => intro a ha; exact ⟨[], rfl, by simp at ha; subst ha; exact .nil⟩
  | cons x _ ih =>
    intro a ha
    cases a with
    | nil => simp at ha
    | cons y a =>
      simp only [List.map_cons, List.cons.injEq] at ha
      obtain ⟨a', h1, h2⟩ := ih ha.2
      exact ⟨y :: a', by simp [ha.1, h1], h2.cons y⟩
  | swap x y l =>
    intro a ha
    cases a with
    | nil => simp at ha
    | cons u a =>
      cases a with
      | nil => simp at ha
      | cons v a =>
        simp only [List.map_cons, List.cons.injEq] at ha
        exact ⟨v :: u :: a, by simp [ha.1, ha.2.1, ha.2.2], .swap u v a⟩
  | trans _ _ ih1 ih2 =>
    intro a ha
    obtain ⟨a2, h1, h2⟩ := ih2 ha
    obtain ⟨a1, h3, h4⟩ := ih1 h1
    exact ⟨a1, h3, h4.trans h2⟩

/-! ### values -/

section
variable (env : Env) (bw : Bool) (ord : MapOrder) {lim : Nat} (hl : lim < 2 ^ 63)
include hl

mutual
theorem ser_enc : ∀ (v : Val) (t : Ty) (p : List Nat), HasTy env lim v t →
    ∃ d e, Repr env v t d ∧ Enc env d t e ∧ d.within lim ∧ SerOK (ser env bw ord v t p) e
  | .null, t, p, h => by
    cases (h : t = _)
    exact ⟨.null, [], rfl, ⟨rfl, rfl⟩, trivial, rfl, rfl⟩
  | .bool b, t, p, h => by
    cases (h : t = _)
    exact ⟨.bool b, _, rfl, ⟨rfl, rfl⟩, trivial, rfl, by cases b <;> rfl⟩
  | .int v, t, p, h => by
    cases (h : t = _)
    exact ⟨.int v, _, rfl, ⟨rfl, rfl⟩, trivial, rfl, writeInt_bytes bw v⟩
  | .long v, t, p, h => by
    cases (h : t = _)
    exact ⟨.long v, _, rfl, ⟨rfl, rfl⟩, trivial, rfl, writeLong_bytes bw v⟩
  | .float v, t, p, h => by
    cases (h : t = _)
    exact ⟨.float v, _, rfl, ⟨rfl, rfl⟩, trivial, rfl, writeFloat_bytes bw v⟩
  | .double v, t, p, h => by
    cases (h : t = _)
    exact ⟨.double v, _, rfl, ⟨rfl, rfl⟩, trivial, rfl, writeDouble_bytes bw v⟩
  | .bytes v, t, p, h => by
    obtain ⟨rfl, h⟩ := h
    exact ⟨.bytes v, _, rfl, ⟨rfl, rfl⟩, h, rfl, writeBytes_bytes bw v h⟩
  | .string v, t, p, h => by
    obtain ⟨rfl, h⟩ := h
    exact ⟨.string v, _, rfl, ⟨rfl, rfl⟩, h, rfl, writeString_bytes bw v h⟩
  | .fixed v, t, p, h => by
    obtain ⟨q, d, rfl, hq, hd⟩ := h
    exact ⟨.fixed v, v, rfl, ⟨q, d, rfl, hq, hd, rfl⟩, trivial, rfl, by simp [ser, Trace.bytes]⟩
  | .enum v, t, p, h => by
    obtain ⟨q, d, ss, dflt, rfl, hq, hd, h0, h1⟩ := h
    have := v.toInt_lt
    exact ⟨.enum v.toInt, _, rfl, ⟨q, d, ss, dflt, rfl, hq, hd, h0, h1, rfl⟩,
      show v.toInt < 2 ^ 63 by omega, rfl, writeInt_bytes bw v⟩
  | .array vs, t, p, h => by
    obtain ⟨item, rfl, hn, hv⟩ := h
    obtain ⟨ds, es, h1, h2, h3, h4, h5, h6⟩ := ser_items vs item 0 p hv
    obtain ⟨bs, hb, hs⟩ := serBlock_ok bw vs.length h5 h4 (by omega)
    refine ⟨.array ds, bs, ⟨item, ds, rfl, h1, rfl⟩, ⟨item, es, rfl, h2, hb⟩, ⟨by omega, h3⟩, ?_⟩
    simp only [ser, List.isEmpty_iff_length_eq_zero]
    exact hs
  | .map es, t, p, h => by
    obtain ⟨item, rfl, hn, hso, hv⟩ := h
    obtain ⟨a, h1, h2, h3, h4⟩ := ser_entries es item 0 p hv
    obtain ⟨a', ha, hp⟩ := perm_of_map (f := fun x : ((List Byte × Datum) × List Byte) × SerOut => x.2)
      (ord.isPerm p (serEntries env bw ord es item 0 p)) h2
    have hok : ∀ x ∈ a', EntryOK env lim item x.1 ∧ SerOK x.2 x.1.2 := fun x hx => h3 x (hp.mem_iff.1 hx)
    have hs := serOKs_map (f := fun x : ((List Byte × Datum) × List Byte) × SerOut => x.2)
      (g := fun x => x.1.2) (l := a') fun x hx => (hok x hx).2
    rw [ha] at hs
    have hlen : es.length = (a'.map fun x => x.1.2).length := by
      rw [List.length_map, hp.length_eq, h4]
    obtain ⟨bs, hb, hs'⟩ := serBlock_ok bw es.length hlen hs (by omega)
    obtain ⟨he, hw⟩ := encEntries_of (env := env) (lim := lim) (item := item) (l := a'.map (·.1)) (by
      intro x hx
      obtain ⟨y, hy, rfl⟩ := List.mem_map.1 hx
      exact (hok y hy).1)
    simp only [List.map_map, Function.comp_def] at he hw
    refine ⟨.map (a'.map fun x => x.1.1), bs, ⟨item, _, _, rfl, h1, (hp.symm.map _), rfl⟩,
      ⟨item, _, rfl, he, hb⟩, ⟨?_, hw⟩, ?_⟩
    · simp only [List.length_map] at hlen ⊢; omega
    · simp only [ser, List.isEmpty_iff_length_eq_zero]
      exact hs'
  | .nil, t, p, h => by
    obtain ⟨ts, rfl, hnull, hlen⟩ := h
    obtain ⟨j, h1, h2, h3⟩ := nullIndex_some hnull
    refine ⟨.union j .null, encLong j ++ [], ⟨ts, j, rfl, h1, rfl⟩,
      ⟨ts, .null, [], rfl, h2, ⟨rfl, rfl⟩, rfl⟩, ⟨by omega, trivial⟩, ?_⟩
    simp only [ser, h1, List.append_nil]
    exact ⟨rfl, writeLong_nat bw j (by omega)⟩
  | .union tag none, t, p, h => by cases h
  | .union tag (some v), t, p, h => by
    obtain ⟨ts, u, rfl, hu, hlen, hnn, hv⟩ := h
    obtain ⟨d, e, h1, h2, h3, h4⟩ := ser_enc v u (0 :: p) hv
    have hlt : tag.toNat < ts.length := (List.getElem?_eq_some_iff.1 hu).1
    have htag : tag.toInt = tag.toNat := BitVec.toInt_eq_toNat_of_lt (by omega)
    refine ⟨.union tag.toNat d, encLong tag.toNat ++ e, ⟨ts, u, d, rfl, hu, h1, rfl⟩,
      ⟨ts, u, e, rfl, hu, h2, rfl⟩, ⟨by omega, h3⟩, ?_⟩
    simp only [ser]
    refine SerOK.andThen ⟨rfl, by rw [writeLong_bytes, htag]⟩ ?_
    have hcond : (0 : Int) ≤ tag.toNat := by omega
    rw [htag, if_pos hcond]
    simp only [Int.toNat_natCast, hu]
    rw [if_neg]
    · exact h4
    · intro hc
      have := nullIndex_isNull hc
      rw [hu] at this
      simp only [Option.some.injEq] at this
      subst this
      simp [Ty.isNull] at hnn
  | .record vs, t, p, h => by
    obtain ⟨q, d, fs, rfl, hq, hd, hv⟩ := h
    obtain ⟨ds, e, h1, h2, h3, h4⟩ := ser_fields vs fs 0 p hv
    refine ⟨.record ds, e, ⟨q, d, fs, ds, rfl, hq, hd, h1, rfl⟩, ⟨q, d, fs, rfl, hq, hd, h2⟩, h3, ?_⟩
    simp only [ser, hq, hd]
    exact h4
theorem ser_items : ∀ (vs : List Val) (t : Ty) (i : Nat) (p : List Nat), AllHaveTy env lim vs t →
    ∃ ds es, ReprAll env vs t ds ∧ EncAll env ds t es ∧ Datum.allWithin lim ds ∧
      SerOKs (serItems env bw ord vs t i p) es ∧ vs.length = es.length ∧ vs.length = ds.length
  | [], t, i, p, h => ⟨[], [], rfl, rfl, trivial, .nil, rfl, rfl⟩
  | v :: vs, t, i, p, h => by
    obtain ⟨d, e, h1, h2, h3, h4⟩ := ser_enc v t (i :: p) h.1
    obtain ⟨ds, es, k1, k2, k3, k4, k5, k6⟩ := ser_items vs t (i + 1) p h.2
    exact ⟨d :: ds, e :: es, ⟨d, ds, rfl, h1, k1⟩, ⟨e, es, rfl, h2, k2⟩, ⟨h3, k3⟩, .cons h4 k4,
      by simp [k5], by simp [k6]⟩
theorem ser_entries : ∀ (es : List (List Byte × Val)) (t : Ty) (i : Nat) (p : List Nat),
    EntriesHaveTy env lim es t →
    ∃ a : List (((List Byte × Datum) × List Byte) × SerOut),
      ReprEntries env es t (a.map fun x => x.1.1) ∧
      (a.map fun x => x.2) = serEntries env bw ord es t i p ∧
      (∀ x ∈ a, EntryOK env lim t x.1 ∧ SerOK x.2 x.1.2) ∧ es.length = a.length
  | [], t, i, p, h => ⟨[], rfl, rfl, by simp, rfl⟩
  | (k, v) :: es, t, i, p, h => by
    obtain ⟨d, e, h1, h2, h3, h4⟩ := ser_enc v t (i :: p) h.2.1
    obtain ⟨a, k1, k2, k3, k4⟩ := ser_entries es t (i + 1) p h.2.2
    refine ⟨(((k, d), encLong k.length ++ k ++ e),
        SerOut.andThen (writeString bw k, true) (ser env bw ord v t (i :: p))) :: a,
      ⟨d, a.map fun x => x.1.1, rfl, h1, k1⟩, by simp [serEntries, k2], ?_, by simp [k4]⟩
    intro x hx
    rcases List.mem_cons.1 hx with rfl | hx
    · exact ⟨⟨⟨e, rfl, h2⟩, h.1, h3⟩, SerOK.andThen ⟨rfl, writeString_bytes bw k h.1⟩ h4⟩
    · exact k3 x hx
theorem ser_fields : ∀ (vs : List Val) (fs : List Field) (i : Nat) (p : List Nat),
    FieldsHaveTy env lim vs fs →
    ∃ ds e, ReprFields env vs fs ds ∧ EncFields env ds fs e ∧ Datum.allWithin lim ds ∧
      SerOK (serFields env bw ord vs fs i p) e
  | [], fs, i, p, h => by
    cases (h : fs = [])
    exact ⟨[], [], rfl, ⟨rfl, rfl⟩, trivial, rfl, rfl⟩
  | v :: vs, fs, i, p, h => by
    obtain ⟨f, fs', rfl, hv, hvs⟩ := h
    obtain ⟨d, e, h1, h2, h3, h4⟩ := ser_enc v f.ty (i :: p) hv
    obtain ⟨ds, e', k1, k2, k3, k4⟩ := ser_fields vs fs' (i + 1) p hvs
    exact ⟨d :: ds, e ++ e', ⟨f, fs', d, ds, rfl, rfl, h1, k1⟩, ⟨f, fs', e, e', rfl, h2, k2, rfl⟩,
      ⟨h3, k3⟩, by simp only [serFields]; exact h4.andThen k4⟩
end
end
end Verif
