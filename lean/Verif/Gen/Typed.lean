import Verif.Gen.Accepts
import Verif.Generic.Exact
/-
What reading and resolving yields is a value of the reader's Go type.
-/
namespace Verif
set_option linter.unusedSimpArgs false
set_option linter.unusedVariables false

theorem short_union {ts : List Ty} (h : (Ty.union ts).short = true) : ts.length < 2 ^ 63 ∧ Ty.allShort ts = true := by
  simpa [Ty.short] using h

/-! ### data that were read are of some size -/

section
variable {k : Bool} {env : Env} {lim : Nat}

mutual
theorem loose_within : ∀ (d : Datum) (t : Ty) (e : List Byte), Loose k env lim d t e → ∃ L, ∀ M, L ≤ M → d.within M
  | .null, t, e, h => ⟨0, fun _ _ => trivial⟩
  | .bool b, t, e, h => ⟨0, fun _ _ => trivial⟩
  | .int b, t, e, h => ⟨0, fun _ _ => trivial⟩
  | .long b, t, e, h => ⟨0, fun _ _ => trivial⟩
  | .float b, t, e, h => ⟨0, fun _ _ => trivial⟩
  | .double b, t, e, h => ⟨0, fun _ _ => trivial⟩
  | .bytes b, t, e, h => ⟨0, fun _ _ => by obtain ⟨_, _, _, h, _⟩ := h; exact h⟩
  | .string b, t, e, h => ⟨0, fun _ _ => by obtain ⟨_, _, _, h, _⟩ := h; exact h⟩
  | .fixed b, t, e, h => ⟨0, fun _ _ => trivial⟩
  | .enum i, t, e, h => ⟨0, fun _ _ => by
      obtain ⟨_, _, _, _, _, _, _, h⟩ := h
      exact h.range.2⟩
  | .array ds, t, e, h => by
    obtain ⟨item, es, rfl, h1, -⟩ := h
    obtain ⟨L, hL⟩ := looseAll_within ds item es h1
    exact ⟨max L ds.length, fun M hM => ⟨by omega, hL M (by omega)⟩⟩
  | .map ds, t, e, h => by
    obtain ⟨item, es, rfl, h1, -⟩ := h
    obtain ⟨L, hL⟩ := looseEntries_within ds item es h1
    exact ⟨max L ds.length, fun M hM => ⟨by omega, hL M (by omega)⟩⟩
  | .union i d, t, e, h => by
    obtain ⟨ts, u, c, e1, rfl, h1, h2, h3, rfl⟩ := h
    obtain ⟨L, hL⟩ := loose_within d u e1 h3
    exact ⟨L, fun M hM => ⟨by have := h2.range.2; omega, hL M hM⟩⟩
  | .record ds, t, e, h => by
    obtain ⟨q, d, fs, rfl, h1, h2, h3⟩ := h
    exact looseFields_within ds fs e h3
theorem looseAll_within : ∀ (ds : List Datum) (t : Ty) (es : List (List Byte)), LooseAll k env lim ds t es →
    ∃ L, ∀ M, L ≤ M → Datum.allWithin M ds
  | [], t, es, h => ⟨0, fun _ _ => trivial⟩
  | d :: ds, t, es, h => by
    obtain ⟨e, es', rfl, h1, h2⟩ := h
    obtain ⟨L, hL⟩ := loose_within d t e h1
    obtain ⟨L', hL'⟩ := looseAll_within ds t es' h2
    exact ⟨max L L', fun M hM => ⟨hL M (by omega), hL' M (by omega)⟩⟩
theorem looseEntries_within : ∀ (ds : List (List Byte × Datum)) (t : Ty) (es : List (List Byte)), LooseEntries k env lim ds t es →
    ∃ L, ∀ M, L ≤ M → Datum.entriesWithin M ds
  | [], t, es, h => ⟨0, fun _ _ => trivial⟩
  | (key, d) :: ds, t, es, h => by
    obtain ⟨c, e, es', rfl, ⟨_, _, h0, _⟩, h1, h2⟩ := h
    obtain ⟨L, hL⟩ := loose_within d t e h1
    obtain ⟨L', hL'⟩ := looseEntries_within ds t es' h2
    exact ⟨max L L', fun M hM => ⟨h0, hL M (by omega), hL' M (by omega)⟩⟩
theorem looseFields_within : ∀ (ds : List Datum) (fs : List Field) (bs : List Byte), LooseFields k env lim ds fs bs →
    ∃ L, ∀ M, L ≤ M → Datum.allWithin M ds
  | [], fs, bs, h => ⟨0, fun _ _ => trivial⟩
  | d :: ds, fs, bs, h => by
    obtain ⟨f, fs', e, bs', rfl, h1, h2, rfl⟩ := h
    obtain ⟨L, hL⟩ := loose_within d f.ty e h1
    obtain ⟨L', hL'⟩ := looseFields_within ds fs' bs' h2
    exact ⟨max L L', fun M hM => ⟨hL M (by omega), hL' M (by omega)⟩⟩
end
end

/-! ### resolving -/

theorem entriesHaveTy_iff {env : Env} {L : Nat} {t : Ty} : ∀ {es : List (List Byte × Val)},
    EntriesHaveTy env L es t ↔ ∀ x ∈ es, x.1.length ≤ 2147483647 ∧ HasTy env L x.2 t
  | [] => by simp [EntriesHaveTy]
  | (k, v) :: es => by simp [EntriesHaveTy, entriesHaveTy_iff (es := es), and_assoc]

theorem mapInserts_mem {α : Type} {x : List Byte × α} : ∀ {es m : List (List Byte × α)}, x ∈ mapInserts m es → x ∈ es ∨ x ∈ m
  | [], m, h => .inr h
  | (k, v) :: es, m, h => by
    rcases mapInserts_mem (es := es) h with h | h
    · exact .inl (List.mem_cons_of_mem _ h)
    · rcases mapInsert_keys h with rfl | h
      · exact .inl (by simp)
      · exact .inr h

theorem mapInsert_length {α : Type} {k : List Byte} {v : α} : ∀ {m : List (List Byte × α)}, (mapInsert k v m).length ≤ m.length + 1
  | [] => by simp [mapInsert]
  | (a, b) :: m => by
    simp only [mapInsert]
    split
    · simp
    · split
      · simp
      · have := mapInsert_length (k := k) (v := v) (m := m); simp; omega

theorem mapInserts_length {α : Type} : ∀ {es m : List (List Byte × α)}, (mapInserts m es).length ≤ es.length + m.length
  | [], m => by simp [mapInserts]
  | (k, v) :: es, m => by
    have h1 := mapInserts_length (es := es) (m := mapInsert k v m)
    have h2 := mapInsert_length (k := k) (v := v) (m := m)
    simp only [mapInserts, List.length_cons] at *
    omega

theorem enum_small {ss : List Str} {n : Nat} (h : n < ss.length) (hs : ss.length ≤ 2 ^ 31) :
    0 ≤ (BitVec.ofInt 32 (n : Int)).toInt ∧ (BitVec.ofInt 32 (n : Int)).toInt < ss.length := by
  have : (BitVec.ofInt 32 (n : Int)).toInt = n := by
    rw [BitVec.toInt_ofInt]
    exact Int.bmod_eq_of_le (by omega) (by omega)
  omega

theorem tag_toNat {n m : Nat} (h : n < m) (hm : m < 2 ^ 63) : (BitVec.ofInt 64 (n : Int)).toNat = n := by
  simp only [BitVec.toNat_ofInt]
  omega

section
variable (drop : Datum → Bool) (dv : Field → Val) {k : Bool} {lim L : Nat} (w r : Schema)

/-- The values of declared defaults are of the types of their fields. -/
def DefaultsTyped (dv : Field → Val) (L : Nat) (env : Env) : Prop :=
  ∀ q d fs f, env.find q = some d → d.kind = .record fs → f ∈ fs → f.dflt.isSome = true → HasTy env L (dv f) f.ty

theorem intoReader_hasTy {we re : Env} {t : Ty} {f : Ty → Option Val} {r : Ty} {v : Val} (hr : r.short = true)
    (h : intoReader we re t f r = some v) (hf : ∀ r' v', r'.short = true → f r' = some v' → HasTy re L v' r' ∧ r'.isNull = false) :
    HasTy re L v r := by
  cases r with
  | union rs =>
    have hr := short_union hr
    simp only [intoReader] at h
    split at h <;> try (cases h; done)
    rename_i j r' hj
    simp only [Option.map_eq_some_iff] at h
    obtain ⟨v', h1, rfl⟩ := h
    have hg := findIdx_getElem hj
    simp only [Nat.sub_zero] at hg
    have hlt := (List.getElem?_eq_some_iff.1 hg.2.1).1
    obtain ⟨h2, h3⟩ := hf r' v' (allShort_mem hr.2 (List.mem_of_getElem? hg.2.1)) h1
    exact ⟨rs, r', rfl, by rw [tag_toNat hlt hr.1]; exact hg.2.1, hr.1, h3, h2⟩
  | _ => exact (hf _ _ hr h).1

theorem readNull_hasTy {re : Env} {r : Ty} {v : Val} (hr : r.short = true) (h : readNull r = some v) : HasTy re L v r := by
  cases r <;> simp [readNull, Ty.nullable] at h
  · subst h; exact rfl
  · obtain ⟨h, rfl⟩ := h
    exact ⟨_, rfl, by simpa [Ty.nullable] using h, (short_union hr).1⟩

theorem fillDefaults_hasTy {re : Env} : ∀ {fs : List Field} {slots : List (Option Val)} {vs : List Val},
    (∀ f ∈ fs, f.dflt.isSome = true → HasTy re L (dv f) f.ty) →
    (∀ (i : Nat) (f : Field) (v : Val), fs[i]? = some f → slots[i]? = some (some v) → HasTy re L v f.ty) →
    fillDefaults dv fs slots = some vs → FieldsHaveTy re L vs fs
  | [], [], vs, _, _, h => by cases h; rfl
  | [], _ :: _, vs, _, _, h => by cases h
  | _ :: _, [], vs, _, _, h => by cases h
  | f :: fs, some v :: s, vs, h1, h2, h => by
    simp only [fillDefaults, Option.map_eq_some_iff] at h
    obtain ⟨vs', h, rfl⟩ := h
    exact ⟨f, fs, rfl, h2 0 f v rfl rfl, fillDefaults_hasTy (fun g hg => h1 g (List.mem_cons_of_mem _ hg))
      (fun i g v hg hv => h2 (i + 1) g v (by simpa using hg) (by simpa using hv)) h⟩
  | f :: fs, none :: s, vs, h1, h2, h => by
    simp only [fillDefaults] at h
    split at h <;> try (cases h; done)
    rename_i hd
    simp only [Option.map_eq_some_iff] at h
    obtain ⟨vs', h, rfl⟩ := h
    exact ⟨f, fs, rfl, h1 f (by simp) hd, fillDefaults_hasTy (fun g hg => h1 g (List.mem_cons_of_mem _ hg))
      (fun i g v hg hv => h2 (i + 1) g v (by simpa using hg) (by simpa using hv)) h⟩

variable {w r} (hw : TidyFields w.env) (hr : Counted r) (hd : DefaultsTyped dv L r.env)
include hw hr hd

mutual
/-- What a datum that was read resolves to is a value of the reader's type. -/
theorem resolve_hasTy : ∀ (d : Datum) (s t : Ty) (e : List Byte) (v : Val), Loose k w.env lim d s e → d.within L → s.tidy = true →
    t.short = true → resolve drop dv w.env r.env d s t = some v → HasTy r.env L v t
  | .null, s, t, e, v, hl, hs, hy, ht, h => by
    cases s <;> simp only [resolve, Ty.isNull, Bool.false_eq_true, if_false, if_true] at h <;> try (cases h; done)
    exact readNull_hasTy ht h
  | .bool b, s, t, e, v, hl, hs, hy, ht, h => by
    cases s <;> simp only [resolve] at h <;> try (cases h; done)
    refine intoReader_hasTy ht h fun r' v' _ h => ?_
    cases r' <;> cases h; exact ⟨rfl, rfl⟩
  | .int b, s, t, e, v, hl, hs, hy, ht, h => by
    cases s <;> simp only [resolve] at h <;> try (cases h; done)
    refine intoReader_hasTy ht h fun r' v' _ h => ?_
    cases r' <;> cases h <;> exact ⟨rfl, rfl⟩
  | .long b, s, t, e, v, hl, hs, hy, ht, h => by
    cases s <;> simp only [resolve] at h <;> try (cases h; done)
    refine intoReader_hasTy ht h fun r' v' _ h => ?_
    cases r' <;> cases h <;> exact ⟨rfl, rfl⟩
  | .float b, s, t, e, v, hl, hs, hy, ht, h => by
    cases s <;> simp only [resolve] at h <;> try (cases h; done)
    refine intoReader_hasTy ht h fun r' v' _ h => ?_
    cases r' <;> cases h <;> exact ⟨rfl, rfl⟩
  | .double b, s, t, e, v, hl, hs, hy, ht, h => by
    cases s <;> simp only [resolve] at h <;> try (cases h; done)
    refine intoReader_hasTy ht h fun r' v' _ h => ?_
    cases r' <;> cases h <;> exact ⟨rfl, rfl⟩
  | .bytes b, s, t, e, v, hl, hs, hy, ht, h => by
    cases s <;> simp only [resolve] at h <;> try (cases h; done)
    refine intoReader_hasTy ht h fun r' v' _ h => ?_
    cases r' <;> cases h <;> exact ⟨⟨rfl, hs⟩, rfl⟩
  | .string b, s, t, e, v, hl, hs, hy, ht, h => by
    cases s <;> simp only [resolve] at h <;> try (cases h; done)
    refine intoReader_hasTy ht h fun r' v' _ h => ?_
    cases r' <;> cases h <;> exact ⟨⟨rfl, hs⟩, rfl⟩
  | .fixed b, s, t, e, v, hl, hs, hy, ht, h => by
    obtain ⟨q, d, rfl, h1, h2, rfl⟩ := hl
    simp only [resolve] at h
    refine intoReader_hasTy ht h fun r' v' hx h => ?_
    clear hx
    cases r' <;> simp only [defAs, h1] at h <;> try (cases h; done)
    rename_i q'
    split at h <;> try (cases h; done)
    rename_i wd rd h3 h4
    cases h3
    split at h <;> try (cases h; done)
    rename_i hrb
    cases hk : rd.kind with
    | fixed n =>
      rw [h2, hk] at h
      cases h
      refine ⟨⟨q', rd, rfl, h4, ?_⟩, rfl⟩
      simp only [Def.readableBy, h2, hk, Bool.and_eq_true, beq_iff_eq] at hrb
      rw [hk, hrb.1]
    | _ => rw [h2, hk] at h; cases h
  | .enum i, s, t, e, v, hl, hs, hy, ht, h => by
    obtain ⟨q, d, ss, dd, rfl, h1, h2, h3⟩ := hl
    simp only [resolve] at h
    refine intoReader_hasTy ht h fun r' v' hx h => ?_
    clear hx
    cases r' <;> simp only [defAs, h1] at h <;> try (cases h; done)
    rename_i q'
    split at h <;> try (cases h; done)
    rename_i wd rd h4 h5
    cases h4
    split at h <;> try (cases h; done)
    cases hk : rd.kind with
    | enum rs dflt =>
      rw [h2, hk] at h
      simp only [enumAs] at h
      have hen := hr.enums q' rd rs dflt h5 hk
      have key : ∀ s n, symbolIndex rs s = some n → n < rs.length := by
        intro s n hn
        obtain ⟨i, rfl, hi⟩ := symbolIndexFrom_at hn
        have := (List.getElem?_eq_some_iff.1 hi).1
        omega
      split at h <;> try (cases h; done)
      simp only [symbolAs] at h
      split at h
      · rename_i n hn
        cases h
        obtain ⟨a, b⟩ := enum_small (key _ _ hn) hen
        exact ⟨⟨q', rd, rs, dflt, rfl, h5, hk, a, b⟩, rfl⟩
      · split at h <;> try (cases h; done)
        cases hn : symbolIndex rs dflt with
        | none => rw [hn] at h; cases h
        | some n =>
        rw [hn] at h
        cases h
        obtain ⟨a, b⟩ := enum_small (key _ _ hn) hen
        exact ⟨⟨q', rd, rs, dflt, rfl, h5, hk, a, b⟩, rfl⟩
    | _ => rw [h2, hk] at h; cases h
  | .array ds, s, t, e, v, hl, hs, hy, ht, h => by
    obtain ⟨item, es, rfl, h1, -⟩ := hl
    simp only [resolve] at h
    have key := fun t' vs ht' hv => resolveItems_hasTy ds item t' es vs h1 hs.2 hy ht' hv
    refine intoReader_hasTy ht h fun r' v' hsh h => ?_
    cases r' <;> simp only [Option.map_eq_some_iff] at h <;> try (cases h; done)
    obtain ⟨vs, h2, rfl⟩ := h
    rename_i t'
    obtain ⟨h3, h4⟩ := key t' vs hsh h2
    exact ⟨⟨_, rfl, by rw [h4]; exact hs.1, h3⟩, rfl⟩
  | .map ds, s, t, e, v, hl, hs, hy, ht, h => by
    obtain ⟨item, es, rfl, h1, -⟩ := hl
    simp only [resolve] at h
    have key := fun t' vs ht' hv => resolveEntries_hasTy ds item t' es vs h1 hs.2 hy ht' hv
    refine intoReader_hasTy ht h fun r' v' hsh h => ?_
    cases r' <;> simp only [Option.map_eq_some_iff] at h <;> try (cases h; done)
    obtain ⟨vs, h2, rfl⟩ := h
    rename_i t'
    obtain ⟨h3, h4⟩ := key t' vs hsh h2
    refine ⟨⟨_, rfl, ?_, sorted_mapOf vs, entriesHaveTy_iff.2 fun x hx => ?_⟩, rfl⟩
    · have := mapInserts_length (es := vs) (m := [])
      have := hs.1
      simp only [mapOf, List.length_nil] at *
      omega
    · rcases mapInserts_mem hx with hx | hx
      · exact entriesHaveTy_iff.1 h3 x hx
      · cases hx
  | .union i d, s, t, e, v, hl, hs, hy, ht, h => by
    obtain ⟨ts, u, c, e1, rfl, h1, h2, h3, rfl⟩ := hl
    simp only [resolve, h1] at h
    obtain ⟨hnu, htu⟩ := tidyMembers_mem hy (List.mem_of_getElem? h1)
    split at h
    · exact readNull_hasTy ht h
    · rename_i hnn
      cases t with
      | union rs =>
        have ht := short_union ht
        simp only at h
        split at h <;> try (cases h; done)
        rename_i j r' hj
        simp only [Option.map_eq_some_iff] at h
        obtain ⟨v', h4, rfl⟩ := h
        have hg : rs[j]? = some r' := by
          unfold pickBranch at hj
          split at hj
          · rename_i x hx
            cases hj
            have := findIdx_getElem hx
            simpa using this.2.1
          · have := findIdx_getElem hj
            simpa using this.2.1
        have hlt := (List.getElem?_eq_some_iff.1 hg).1
        have h5 := resolve_hasTy d u r' e1 v' h3 hs.2 htu (allShort_mem ht.2 (List.mem_of_getElem? hg)) h4
        refine ⟨rs, r', rfl, by rw [tag_toNat hlt ht.1]; exact hg, ht.1, ?_, h5⟩
        cases r' <;> try rfl
        exfalso
        cases d <;> cases u <;> simp [resolve, Ty.isNull, Ty.isUnion, intoReader, boolAs, intAs, longAs, floatAs, doubleAs, octetsAs, defAs] at h4 hnn hnu
      | _ =>
        simp only at h
        split at h <;> try (cases h; done)
        exact resolve_hasTy d u _ e1 v h3 hs.2 htu ht h
  | .record ds, s, t, e, v, hl, hs, hy, ht, h => by
    obtain ⟨q, d, fs, rfl, h1, h2, h3⟩ := hl
    simp only [resolve] at h
    have key := fun rfs slots out hsl hfs ho => resolveFields_hasTy ds fs rfs e slots out h3 hs
      (fun f hf => hw q d fs f h1 h2 hf) hsl hfs ho
    refine intoReader_hasTy ht h fun r' v' hx h => ?_
    clear hx
    cases r' <;> simp only [defAs, h1] at h <;> try (cases h; done)
    rename_i q'
    split at h <;> try (cases h; done)
    rename_i wd rd h4 h5
    cases h4
    split at h <;> try (cases h; done)
    cases hk : rd.kind with
    | record rfs =>
      rw [h2, hk] at h
      simp only at h
      split at h <;> try (cases h; done)
      rename_i slots hsl
      simp only [Option.map_eq_some_iff] at h
      obtain ⟨vs, h6, rfl⟩ := h
      refine ⟨⟨q', rd, rfs, rfl, h5, hk, ?_⟩, rfl⟩
      refine fillDefaults_hasTy dv (fun f hf hdf => hd q' rd rfs f h5 hk hf hdf) ?_ h6
      refine key rfs _ slots (fun f hf => hr.fields q' rd rfs f h5 hk hf) ?_ hsl
      intro i f v hf hv
      rw [List.getElem?_replicate] at hv
      split at hv <;> cases hv
    | _ => rw [h2, hk] at h; cases h
theorem resolveItems_hasTy : ∀ (ds : List Datum) (s t : Ty) (es : List (List Byte)) (vs : List Val), LooseAll k w.env lim ds s es →
    Datum.allWithin L ds → s.tidy = true → t.short = true → resolveItems drop dv w.env r.env ds s t = some vs →
    AllHaveTy r.env L vs t ∧ vs.length = ds.length
  | [], s, t, es, vs, hl, hs, hy, ht, h => by cases h; exact ⟨trivial, rfl⟩
  | d :: ds, s, t, es, vs, hl, hs, hy, ht, h => by
    obtain ⟨e, es', rfl, h1, h2⟩ := hl
    simp only [resolveItems] at h
    split at h <;> try (cases h; done)
    rename_i v hv
    simp only [Option.map_eq_some_iff] at h
    obtain ⟨vs', h3, rfl⟩ := h
    obtain ⟨h4, h5⟩ := resolveItems_hasTy ds s t es' vs' h2 hs.2 hy ht h3
    exact ⟨⟨resolve_hasTy d s t e v h1 hs.1 hy ht hv, h4⟩, by simp [h5]⟩
theorem resolveEntries_hasTy : ∀ (ds : List (List Byte × Datum)) (s t : Ty) (es : List (List Byte)) (vs : List (List Byte × Val)),
    LooseEntries k w.env lim ds s es → Datum.entriesWithin L ds → s.tidy = true → t.short = true →
    resolveEntries drop dv w.env r.env ds s t = some vs → EntriesHaveTy r.env L vs t ∧ vs.length = ds.length
  | [], s, t, es, vs, hl, hs, hy, ht, h => by cases h; exact ⟨trivial, rfl⟩
  | (key, d) :: ds, s, t, es, vs, hl, hs, hy, ht, h => by
    obtain ⟨c, e, es', rfl, h0, h1, h2⟩ := hl
    simp only [resolveEntries] at h
    split at h <;> try (cases h; done)
    rename_i v hv
    simp only [Option.map_eq_some_iff] at h
    obtain ⟨vs', h3, rfl⟩ := h
    obtain ⟨h4, h5⟩ := resolveEntries_hasTy ds s t es' vs' h2 hs.2.2 hy ht h3
    exact ⟨⟨hs.1, resolve_hasTy d s t e v h1 hs.2.1 hy ht hv, h4⟩, by simp [h5]⟩
theorem resolveFields_hasTy : ∀ (ds : List Datum) (fs rfs : List Field) (bs : List Byte) (slots out : List (Option Val)),
    LooseFields k w.env lim ds fs bs → Datum.allWithin L ds → (∀ f ∈ fs, f.ty.tidy = true) → (∀ f ∈ rfs, f.ty.short = true) →
    (∀ (i : Nat) (f : Field) (v : Val), rfs[i]? = some f → slots[i]? = some (some v) → HasTy r.env L v f.ty) →
    resolveFields drop dv w.env r.env ds fs rfs slots = some out →
    ∀ (i : Nat) (f : Field) (v : Val), rfs[i]? = some f → out[i]? = some (some v) → HasTy r.env L v f.ty
  | [], fs, rfs, bs, slots, out, hl, hs, hy, ht, hsl, h => by
    obtain ⟨rfl, rfl⟩ := hl
    cases h; exact hsl
  | d :: ds, fs, rfs, bs, slots, out, hl, hs, hy, ht, hsl, h => by
    obtain ⟨f, fs', e, bs', rfl, h1, h2, rfl⟩ := hl
    simp only [resolveFields] at h
    split at h
    · split at h <;> try (cases h; done)
      exact resolveFields_hasTy ds fs' rfs bs' slots out h2 hs.2 (fun g hg => hy g (List.mem_cons_of_mem _ hg)) ht hsl h
    · rename_i i rf hi
      split at h <;> try (cases h; done)
      split at h <;> try (cases h; done)
      rename_i v hv
      have hrf := fieldByName_getElem hi
      refine resolveFields_hasTy ds fs' rfs bs' _ out h2 hs.2 (fun g hg => hy g (List.mem_cons_of_mem _ hg)) ht ?_ h
      intro j g v' hg hv'
      rw [List.getElem?_set] at hv'
      split at hv'
      · rename_i hij
        subst hij
        split at hv' <;> cases hv'
        rw [hrf] at hg
        cases hg
        exact resolve_hasTy d f.ty rf.ty e v h1 hs.1 (hy f (by simp)) (ht rf (List.mem_of_getElem? hrf)) hv
      · exact hsl j g v' hg hv'
end
end

/-! ### larger limits -/

section
variable {env : Env} {L M : Nat} (hLM : L ≤ M)
include hLM

mutual
theorem hasTy_mono : ∀ (v : Val) (t : Ty), HasTy env L v t → HasTy env M v t
  | .null, t, h => h
  | .bool _, t, h => h
  | .int _, t, h => h
  | .long _, t, h => h
  | .float _, t, h => h
  | .double _, t, h => h
  | .bytes _, t, h => h
  | .string _, t, h => h
  | .fixed _, t, h => h
  | .enum _, t, h => h
  | .array vs, t, h => by
    obtain ⟨item, rfl, h1, h2⟩ := h
    exact ⟨item, rfl, by omega, allHaveTy_mono vs item h2⟩
  | .map vs, t, h => by
    obtain ⟨item, rfl, h1, h2, h3⟩ := h
    exact ⟨item, rfl, by omega, h2, entriesHaveTy_mono vs item h3⟩
  | .nil, t, h => h
  | .union _ none, t, h => h
  | .union tag (some v), t, h => by
    obtain ⟨ts, u, rfl, h1, h2, h3, h4⟩ := h
    exact ⟨ts, u, rfl, h1, h2, h3, hasTy_mono v u h4⟩
  | .record vs, t, h => by
    obtain ⟨q, d, fs, rfl, h1, h2, h3⟩ := h
    exact ⟨q, d, fs, rfl, h1, h2, fieldsHaveTy_mono vs fs h3⟩
theorem allHaveTy_mono : ∀ (vs : List Val) (t : Ty), AllHaveTy env L vs t → AllHaveTy env M vs t
  | [], t, h => trivial
  | v :: vs, t, h => ⟨hasTy_mono v t h.1, allHaveTy_mono vs t h.2⟩
theorem entriesHaveTy_mono : ∀ (vs : List (List Byte × Val)) (t : Ty), EntriesHaveTy env L vs t → EntriesHaveTy env M vs t
  | [], t, h => trivial
  | (_, v) :: vs, t, h => ⟨h.1, hasTy_mono v t h.2.1, entriesHaveTy_mono vs t h.2.2⟩
theorem fieldsHaveTy_mono : ∀ (vs : List Val) (fs : List Field), FieldsHaveTy env L vs fs → FieldsHaveTy env M vs fs
  | [], fs, h => h
  | v :: vs, fs, h => by
    obtain ⟨f, fs', rfl, h1, h2⟩ := h
    exact ⟨f, fs', rfl, hasTy_mono v f.ty h1, fieldsHaveTy_mono vs fs' h2⟩
end
end
end Verif
