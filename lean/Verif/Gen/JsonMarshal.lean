import Verif.Gen.JsonText
import Verif.Gen.SerEnc
import Verif.Gen.Self
/-
`MarshalJSON` writes Avro's JSON encoding.
-/
namespace Verif
open Val (Textual AllTextual EntriesTextual)

variable {env : Env} {lim : Nat}

theorem jbind_ok {α β : Type} {x : JRes α} {f : α → JRes β} {a : α} (h : x = .ok a) : x.bind f = f a := by
  subst h; rfl

theorem jmap_ok {α β : Type} {x : JRes α} {f : α → β} {a : α} (h : x = .ok a) : x.map f = .ok (f a) := by
  subst h; rfl

theorem jbind_inv {α β : Type} {x : JRes α} {f : α → JRes β} {b : β} (h : x.bind f = .ok b) : ∃ a, x = .ok a ∧ f a = .ok b := by
  cases x with
  | error e => cases h
  | ok a => exact ⟨a, rfl, h⟩

theorem jmap_inv {α β : Type} {x : JRes α} {f : α → β} {b : β} (h : x.map f = .ok b) : ∃ a, x = .ok a ∧ f a = b := by
  cases x with
  | error e => cases h
  | ok a => exact ⟨a, rfl, by cases h; rfl⟩

/-! Names of members. -/

theorem jsonName_iff {t : Ty} {k : Str} : JsonName env t k ↔ unionKey env t = some k := by
  constructor
  · intro h
    cases h with
    | ref hq => simp [unionKey, hq]
    | _ => rfl
  · intro h
    cases t with
    | union ts => cases h
    | ref q =>
      simp only [unionKey, Option.map_eq_some_iff] at h
      obtain ⟨d, hd, rfl⟩ := h
      exact .ref hd
    | _ => cases h; constructor

theorem allNamed_get {ts : List Ty} (h : Ty.AllNamed env ts) {i : Nat} {t : Ty} (hi : ts[i]? = some t) : t.Named env := by
  induction ts generalizing i with
  | nil => simp at hi
  | cons u ts ih =>
    simp only [Ty.AllNamed] at h
    cases i with
    | zero => simp at hi; subst hi; exact h.1
    | succ i => exact ih h.2 (by simpa using hi)

/-! Objects. -/

theorem member_raw {m : List (List Byte × JTree)} (h : ∀ e ∈ m, ∃ s, e.1 = utf8 s) (k : Str) :
    member (m.map fun e => (fromUtf8 e.1, e.2)) k = mapGet m (utf8 k) := by
  induction m with
  | nil => rfl
  | cons e m ih =>
    obtain ⟨s, hs⟩ := h e (by simp)
    obtain ⟨ek, ev⟩ := e
    subst hs
    simp only [List.map_cons, member, mapGet, fromUtf8_utf8]
    by_cases hk : s = k
    · subst hk; simp
    · rw [if_neg hk, if_neg (fun h => hk (utf8_inj h)), ih (fun e he => h e (by simp [he]))]

theorem raw_nodup {m : List (List Byte × JTree)} (h : ∀ e ∈ m, ∃ s, e.1 = utf8 s) (hn : (m.map (·.1)).Nodup) :
    ((m.map fun e => (fromUtf8 e.1, e.2)).map Prod.fst).Nodup := by
  rw [List.map_map]
  rw [List.nodup_iff_pairwise_ne, List.pairwise_map] at hn ⊢
  refine hn.imp_of_mem ?_
  intro a b ha hb hab he
  obtain ⟨s, hs⟩ := h a ha
  obtain ⟨s', hs'⟩ := h b hb
  simp only [Function.comp_apply, hs, hs', fromUtf8_utf8] at he
  subst he
  exact hab (hs.trans hs'.symm)

theorem mem_mapInserts {α : Type} : ∀ (es : List (List Byte × α)) {m : List (List Byte × α)} {x},
    x ∈ mapInserts m es → x ∈ es ∨ x ∈ m
  | [], m, x, h => .inr h
  | (k, v) :: es, m, x, h => by
    rcases mem_mapInserts es h with h | h
    · exact .inl (by simp [h])
    · rcases mapInsert_keys h with rfl | h
      · exact .inl (by simp)
      · exact .inr h

theorem mem_mapOf {α : Type} {es : List (List Byte × α)} {x} (h : x ∈ mapOf es) : x ∈ es := by
  rcases mem_mapInserts es h with h | h
  · exact h
  · simp at h

theorem mapGet_get {α : Type} {es : List (List Byte × α)} (hn : (es.map (·.1)).Nodup) {i : Nat} {k v}
    (hi : es[i]? = some (k, v)) : mapGet es k = some v := by
  induction es generalizing i with
  | nil => simp at hi
  | cons e es ih =>
    rw [List.map_cons, List.nodup_cons] at hn
    obtain ⟨a, b⟩ := e
    cases i with
    | zero => simp at hi; simp [mapGet, hi]
    | succ i =>
      have hi' : es[i]? = some (k, v) := by simpa using hi
      have : a ≠ k := fun h => hn.1 (by
        subst h
        exact List.mem_map.2 ⟨_, List.mem_of_getElem? hi', rfl⟩)
      rw [mapGet, if_neg this, ih hn.2 hi']

/-! Values. -/

theorem enumString_ok {syms : List Str} {v : BitVec 32} (h0 : 0 ≤ v.toInt) (h1 : v.toInt < syms.length) :
    ∃ s, enumString syms v = s ∧ syms[v.toInt.toNat]? = some s ∧ v = BitVec.ofNat 32 v.toInt.toNat := by
  have hl : v.toInt.toNat < syms.length := by omega
  refine ⟨syms[v.toInt.toNat], ?_, List.getElem?_eq_getElem hl, ?_⟩
  · unfold enumString
    rw [if_pos h0, List.getElem?_eq_getElem hl]
  · apply BitVec.eq_of_toNat_eq
    have hv := v.isLt
    rw [BitVec.toInt_eq_toNat_cond] at h0 ⊢
    split <;> simp_all <;> omega

theorem tag_small {tag : BitVec 64} (h : tag.toNat < 2 ^ 63) : tag.toInt = tag.toNat := by
  rw [BitVec.toInt_eq_toNat_cond, if_pos (by omega)]

theorem unionCase_ok {ts : List Ty} {tag : BitVec 64} {u : Ty} (hl : ts.length < 2 ^ 63) (hu : ts[tag.toNat]? = some u)
    (hn : u.isNull = false) : unionCase ts tag = some u := by
  have hlt := (List.getElem?_eq_some_iff.1 hu).1
  have ht := tag_small (tag := tag) (by omega)
  unfold unionCase
  rw [ht, if_pos]
  · simpa using hu
  · refine ⟨by omega, fun h => ?_⟩
    have := nullIndex_isNull h
    simp only [Int.toNat_natCast] at this
    rw [hu] at this
    cases this
    cases hn

theorem toInt_bounds (w : Nat) (hw : 0 < w) (v : BitVec w) : -(2 ^ (w - 1) : Int) ≤ v.toInt ∧ v.toInt < 2 ^ (w - 1) :=
  ⟨BitVec.le_toInt v, BitVec.toInt_lt⟩

theorem intNum_sign (z : Int) : z = (if decide (z < 0) = true then -(z.natAbs : Int) else (z.natAbs : Int)) := by
  by_cases h : z < 0
  · simp [h]; omega
  · simp [h]; omega

mutual
theorem marshal_ok (hS : SymbolsApart env) (hF : FieldNamesApart env) (hN : FieldsNamed env) : ∀ (v : Val) (t : Ty),
    HasTy env lim v t → t.Named env → v.Textual → ∃ j, marshal env v t = .ok j ∧ JsonOf env false j t v
  | .null, t, h, _, _ => by
    simp only [HasTy] at h; subst h; exact ⟨_, rfl, .null⟩
  | .bool b, t, h, _, _ => by
    simp only [HasTy] at h; subst h; exact ⟨_, rfl, .bool⟩
  | .int v, t, h, _, _ => by
    simp only [HasTy] at h; subst h
    have hb := toInt_bounds 32 (by omega) v
    have := JsonOf.int (env := env) (ext := false) (intNum_sign v.toInt) (by simpa using hb.1) (by simpa using hb.2)
    rw [BitVec.ofInt_toInt] at this
    exact ⟨_, rfl, this⟩
  | .long v, t, h, _, _ => by
    simp only [HasTy] at h; subst h
    have hb := toInt_bounds 64 (by omega) v
    have := JsonOf.long (env := env) (ext := false) (intNum_sign v.toInt) (by simpa using hb.1) (by simpa using hb.2)
    rw [BitVec.ofInt_toInt] at this
    exact ⟨_, rfl, this⟩
  | .float b, t, h, _, ht => by
    simp only [HasTy] at h; subst h
    simp only [Textual] at ht
    obtain ⟨x, e, hx⟩ := floatNum_ok (F := single) (by decide) (by decide) ht
    exact ⟨_, e, .float hx⟩
  | .double b, t, h, _, ht => by
    simp only [HasTy] at h; subst h
    simp only [Textual] at ht
    obtain ⟨x, e, hx⟩ := floatNum_ok (F := double) (by decide) (by decide) ht
    exact ⟨_, e, .double hx⟩
  | .bytes bs, t, h, _, _ => by
    simp only [HasTy] at h; obtain ⟨rfl, _⟩ := h
    have := JsonOf.bytes (env := env) (ext := false) (byteChars_small bs)
    rw [byteChars_bytes] at this
    exact ⟨_, rfl, this⟩
  | .string bs, t, h, _, ht => by
    simp only [HasTy] at h; obtain ⟨rfl, _⟩ := h
    simp only [Textual] at ht; obtain ⟨s, rfl⟩ := ht
    refine ⟨_, rfl, ?_⟩
    rw [fromUtf8_utf8]
    exact .string
  | .fixed bs, t, h, _, _ => by
    simp only [HasTy] at h
    obtain ⟨q, d, rfl, hq, hk⟩ := h
    refine ⟨.str (byteChars bs), by simp only [marshal, hq, hk], ?_⟩
    have := JsonOf.fixed (ext := false) hq hk (byteChars_small bs) (by simp [byteChars])
    rwa [byteChars_bytes] at this
  | .enum v, t, h, _, _ => by
    simp only [HasTy] at h
    obtain ⟨q, d, ss, dflt, rfl, hq, hk, h0, h1⟩ := h
    obtain ⟨s, e1, e2, e3⟩ := enumString_ok h0 h1
    refine ⟨.str s, by simp only [marshal, hq, hk, e1], ?_⟩
    rw [e3]
    refine .enum hq hk e2 fun i' hi' hs => ?_
    have hnd := hS q d ss dflt hq hk
    have := (List.getElem?_inj (List.getElem?_eq_some_iff.1 hs).1 hnd).1 (hs.trans e2.symm)
    omega
  | .array vs, t, h, hn, ht => by
    simp only [HasTy] at h
    obtain ⟨item, rfl, _, h⟩ := h
    simp only [Textual] at ht
    simp only [Ty.Named] at hn
    obtain ⟨js, e, hl, hj⟩ := marshalItems_ok hS hF hN vs item h hn ht
    exact ⟨.arr js, by simp only [marshal]; exact jmap_ok e, .array hl hj⟩
  | .map es, t, h, hn, ht => by
    simp only [HasTy] at h
    obtain ⟨item, rfl, _, hs, h⟩ := h
    simp only [Textual] at ht
    simp only [Ty.Named] at hn
    obtain ⟨m, e, hk, ht', hj⟩ := marshalEntries_ok hS hF hN es item h hn ht
    refine ⟨rawObject m, by simp only [marshal]; exact jmap_ok e, ?_⟩
    have hl : m.length = es.length := by simpa using congrArg List.length hk
    have hkn : (m.map (·.1)).Nodup := by
      rw [show m.map (·.1) = es.map (·.1) from hk]; exact sorted_keys_nodup hs
    have hm : ∀ e ∈ m, ∃ s, e.1 = utf8 s := by
      intro e he
      have : e.1 ∈ es.map Prod.fst := by rw [← hk]; exact List.mem_map.2 ⟨e, he, rfl⟩
      obtain ⟨e', he', e1⟩ := List.mem_map.1 this
      rw [← e1]; exact ht' e' he'
    have := JsonOf.map (env := env) (ext := false) (t := item) (vs := es.map Prod.snd) (raw_nodup hm hkn) (by simp [hl]) (by
      intro i kv v hi hv
      rw [List.getElem?_map, Option.map_eq_some_iff] at hi hv
      obtain ⟨a, ha, rfl⟩ := hi
      obtain ⟨b, hb, rfl⟩ := hv
      exact hj i a b ha hb)
    have e1 : ((m.map fun e => (fromUtf8 e.1, e.2)).map fun kv => utf8 kv.1) = es.map Prod.fst := by
      rw [List.map_map, ← hk]
      apply List.map_congr_left
      intro e he
      obtain ⟨s, hs⟩ := hm e he
      simp only [Function.comp_apply, hs, fromUtf8_utf8]
    rw [e1] at this
    have e2 : (es.map Prod.fst).zip (es.map Prod.snd) = es := by
      rw [List.zip_map']; simp
    rw [e2, mapOf_perm hs (List.Perm.refl _)] at this
    exact this
  | .nil, t, h, _, _ => by
    simp only [HasTy] at h
    obtain ⟨ts, rfl, h, _⟩ := h
    simp only [Ty.nullable] at h
    refine ⟨.null, by simp only [marshal, h, if_true], ?_⟩
    rw [List.any_eq_true] at h
    obtain ⟨t, ht, hn⟩ := h
    exact .unionNull ht (by cases t <;> first | rfl | cases hn)
  | .union _ none, t, h, _, _ => by simp only [HasTy] at h
  | .union tag (some v), t, h, hn, ht => by
    simp only [HasTy] at h
    obtain ⟨ts, u, rfl, hu, hl, hnu, h⟩ := h
    simp only [Textual] at ht
    simp only [Ty.Named] at hn
    obtain ⟨j, e, hj⟩ := marshal_ok hS hF hN v u h (allNamed_get hn.2 hu) ht
    obtain ⟨k, hk⟩ := hn.1.1 u (List.mem_of_getElem? hu)
    refine ⟨.obj [(k, j)], ?_, ?_⟩
    · simp only [marshal, unionCase_ok hl hu hnu, jsonName_iff.1 hk]
      exact jmap_ok e
    · have hlt := (List.getElem?_eq_some_iff.1 hu).1
      have := JsonOf.union (ext := false) hu (by rintro rfl; cases hnu) hk (fun i' t' hi' ht' hk' => by
        have := hn.1.2 _ _ _ _ _ ht' hu hk' hk
        omega) (by omega) hj
      rwa [BitVec.ofNat_toNat, BitVec.setWidth_eq] at this
  | .record vs, t, h, _, ht => by
    simp only [HasTy] at h
    obtain ⟨q, d, fs, rfl, hq, hk, h⟩ := h
    simp only [Textual] at ht
    obtain ⟨es, e, hke, hl, hj⟩ := marshalFields_ok hS hF hN vs fs h (fun f hf => hN q d fs f hq hk hf) ht
    refine ⟨rawObject (mapOf es), by simp only [marshal, hq, hk]; exact jmap_ok e, ?_⟩
    have hle : es.length = fs.length := by simpa using congrArg List.length hke
    have hm : ∀ e ∈ mapOf es, ∃ f ∈ fs, e.1 = utf8 f.name := by
      intro e he
      have : e.1 ∈ es.map Prod.fst := List.mem_map.2 ⟨e, mem_mapOf he, rfl⟩
      rw [hke] at this
      obtain ⟨f, hf, e1⟩ := List.mem_map.1 this
      exact ⟨f, hf, e1.symm⟩
    have hm' : ∀ e ∈ mapOf es, ∃ s, e.1 = utf8 s := fun e he => by
      obtain ⟨f, _, h⟩ := hm e he; exact ⟨_, h⟩
    have hnd : (es.map (·.1)).Nodup := by
      rw [show es.map (·.1) = fs.map (fun f => utf8 f.name) from hke]
      have h1 := hF q d fs hq hk
      rw [List.nodup_iff_pairwise_ne, List.pairwise_map] at h1 ⊢
      exact h1.imp fun h e => h (utf8_inj e)
    have hget : ∀ (i : Nat) f, fs[i]? = some f → ∃ j, es[i]? = some (utf8 f.name, j) ∧
        member ((mapOf es).map fun e => (fromUtf8 e.1, e.2)) f.name = some j := by
      intro i f hi
      have h1 : (es.map Prod.fst)[i]? = some (utf8 f.name) := by rw [hke, List.getElem?_map, hi]; rfl
      rw [List.getElem?_map, Option.map_eq_some_iff] at h1
      obtain ⟨⟨k, j⟩, h2, rfl⟩ := h1
      refine ⟨j, h2, ?_⟩
      rw [member_raw hm', mapGet_mapOf, filter_key_nodup hnd]
      exact mapGet_get hnd h2
    refine .record hq hk (raw_nodup hm' (sorted_keys_nodup (sorted_mapOf es))) ?_ hl.symm ?_ ?_
    · intro _ kv hkv
      obtain ⟨e, he, rfl⟩ := List.mem_map.1 hkv
      obtain ⟨f, hf, h⟩ := hm e he
      exact ⟨f, hf, by rw [h, fromUtf8_utf8]⟩
    · intro i f v j hi hv hin
      obtain ⟨j', h1, h2⟩ := hget i f hi
      simp only [Field.inJson, firstMember, h2] at hin
      cases hin
      exact hj i _ f v h1 hi hv
    · intro i f v hi hv hin
      obtain ⟨j', h1, h2⟩ := hget i f hi
      simp only [Field.inJson, firstMember, h2] at hin
      cases hin
theorem marshalItems_ok (hS : SymbolsApart env) (hF : FieldNamesApart env) (hN : FieldsNamed env) : ∀ (vs : List Val) (t : Ty),
    AllHaveTy env lim vs t → t.Named env → AllTextual vs →
    ∃ js, marshalItems env vs t = .ok js ∧ js.length = vs.length ∧
      ∀ (i : Nat) j v, js[i]? = some j → vs[i]? = some v → JsonOf env false j t v
  | [], t, _, _, _ => ⟨[], rfl, rfl, by simp⟩
  | v :: vs, t, h, hn, ht => by
    simp only [AllHaveTy] at h
    simp only [AllTextual] at ht
    obtain ⟨j, e1, h1⟩ := marshal_ok hS hF hN v t h.1 hn ht.1
    obtain ⟨js, e2, hl, h2⟩ := marshalItems_ok hS hF hN vs t h.2 hn ht.2
    refine ⟨j :: js, ?_, by simp [hl], ?_⟩
    · simp only [marshalItems]
      rw [jbind_ok e1, jmap_ok e2]
    · intro i j' v' hi hv
      cases i with
      | zero => simp at hi hv; subst hi; subst hv; exact h1
      | succ i => exact h2 i j' v' (by simpa using hi) (by simpa using hv)
theorem marshalEntries_ok (hS : SymbolsApart env) (hF : FieldNamesApart env) (hN : FieldsNamed env) :
    ∀ (es : List (List Byte × Val)) (t : Ty), EntriesHaveTy env lim es t → t.Named env → EntriesTextual es →
    ∃ m, marshalEntries env es t = .ok m ∧ m.map Prod.fst = es.map Prod.fst ∧ (∀ e ∈ es, ∃ s, e.1 = utf8 s) ∧
      ∀ (i : Nat) a b, m[i]? = some a → es[i]? = some b → JsonOf env false a.2 t b.2
  | [], t, _, _, _ => ⟨[], rfl, rfl, by simp, by simp⟩
  | (k, v) :: es, t, h, hn, ht => by
    simp only [EntriesHaveTy] at h
    simp only [EntriesTextual] at ht
    obtain ⟨j, e1, h1⟩ := marshal_ok hS hF hN v t h.2.1 hn ht.2.1
    obtain ⟨m, e2, hl, hk, h2⟩ := marshalEntries_ok hS hF hN es t h.2.2 hn ht.2.2
    refine ⟨(k, j) :: m, ?_, by simp [hl], ?_, ?_⟩
    · simp only [marshalEntries]
      rw [jbind_ok e1, jmap_ok e2]
    · intro e he
      rcases List.mem_cons.1 he with rfl | he
      · exact ht.1
      · exact hk e he
    · intro i a b hi hv
      cases i with
      | zero => simp at hi hv; subst hi; subst hv; exact h1
      | succ i => exact h2 i a b (by simpa using hi) (by simpa using hv)
theorem marshalFields_ok (hS : SymbolsApart env) (hF : FieldNamesApart env) (hN : FieldsNamed env) :
    ∀ (vs : List Val) (fs : List Field), FieldsHaveTy env lim vs fs → (∀ f ∈ fs, f.ty.Named env) → AllTextual vs →
    ∃ es, marshalFields env vs fs = .ok es ∧ es.map Prod.fst = fs.map (fun f => utf8 f.name) ∧ vs.length = fs.length ∧
      ∀ (i : Nat) e f v, es[i]? = some e → fs[i]? = some f → vs[i]? = some v → JsonOf env false e.2 f.ty v
  | [], fs, h, _, _ => by
    simp only [FieldsHaveTy] at h
    subst h
    exact ⟨[], rfl, rfl, rfl, by simp⟩
  | v :: vs, fs, h, hn, ht => by
    simp only [FieldsHaveTy] at h
    obtain ⟨f, fs', rfl, h0, h⟩ := h
    simp only [AllTextual] at ht
    obtain ⟨j, e1, h1⟩ := marshal_ok hS hF hN v f.ty h0 (hn f (by simp)) ht.1
    obtain ⟨es, e2, hk, hl, h2⟩ := marshalFields_ok hS hF hN vs fs' h (fun f hf => hn f (by simp [hf])) ht.2
    refine ⟨(utf8 f.name, j) :: es, ?_, by simp [hk], by simp [hl], ?_⟩
    · simp only [marshalFields]
      rw [jbind_ok e1, jmap_ok e2]
    · intro i e f' v' hi hf hv
      cases i with
      | zero => simp at hi hv hf; subst hi; subst hv; subst hf; exact h1
      | succ i => exact h2 i e f' v' (by simpa using hi) (by simpa using hf) (by simpa using hv)
end

end Verif
