import Verif.Spec.BadIndex
import Verif.Gen.WellFormed
/-
Input with an index that does not exist is not read, or an enum in it is not resolved.
-/
namespace Verif
set_option linter.unusedSimpArgs false
set_option linter.unusedVariables false

section
variable (env : Env)
mutual
/-- The enum indices of a datum exist. -/
def EnumsIn : Datum → Ty → Prop
  | .enum i, t => ∃ q d ss dflt, t = .ref q ∧ env.find q = some d ∧ d.kind = .enum ss dflt ∧ 0 ≤ i ∧ i < ss.length
  | .array ds, t => ∃ item, t = .array item ∧ ItemsIn ds item
  | .map es, t => ∃ item, t = .map item ∧ EntriesIn es item
  | .union i d, t => ∃ ts u, t = .union ts ∧ ts[i]? = some u ∧ (u.isNull = true ∨ EnumsIn d u)
  | .record ds, t => ∃ q d fs, t = .ref q ∧ env.find q = some d ∧ d.kind = .record fs ∧ FieldsIn ds fs
  | _, _ => True
def ItemsIn : List Datum → Ty → Prop
  | [], _ => True
  | d :: ds, t => EnumsIn d t ∧ ItemsIn ds t
def EntriesIn : List (List Byte × Datum) → Ty → Prop
  | [], _ => True
  | (_, d) :: ds, t => EnumsIn d t ∧ EntriesIn ds t
def FieldsIn : List Datum → List Field → Prop
  | [], fs => fs = []
  | d :: ds, fs => ∃ f fs', fs = f :: fs' ∧ EnumsIn d f.ty ∧ FieldsIn ds fs'
end

theorem itemsIn_mem {t d} : ∀ {ds}, ItemsIn env ds t → d ∈ ds → EnumsIn env d t
  | [], _, h => by simp at h
  | x :: ds, h, hm => by
    rcases List.mem_cons.1 hm with rfl | hm
    · exact h.1
    · exact itemsIn_mem h.2 hm

theorem entriesIn_mem {t k d} : ∀ {ds}, EntriesIn env ds t → (k, d) ∈ ds → EnumsIn env d t
  | [], _, h => by simp at h
  | (_, x) :: ds, h, hm => by
    rcases List.mem_cons.1 hm with h' | hm
    · cases h'; exact h.1
    · exact entriesIn_mem h.2 hm

theorem fieldsIn_get {f : Field} : ∀ {ds fs}, FieldsIn env ds fs → ∀ (j : Nat) (d : Datum), ds[j]? = some d → fs[j]? = some f → EnumsIn env d f.ty
  | [], _, h, j, d, hd, hf => by simp at hd
  | x :: ds, fs, h, j, d, hd, hf => by
    obtain ⟨g, fs', rfl, h1, h2⟩ := h
    cases j with
    | zero => simp at hd hf; subst hd; subst hf; exact h1
    | succ j => simp at hd hf; exact fieldsIn_get h2 j d hd hf

/-! ### resolution of a schema against itself sees all enums -/

variable (drop : Datum → Bool) (dv : Field → Val)

theorem self_intoReader {t : Ty} {f : Ty → Option Val} {v : Val} (h : intoReader env env t f t = some v)
    (hu : t.isUnion = false) : f t = some v := by
  cases t <;> simp only [intoReader] at h <;> first | exact h | simp [Ty.isUnion] at hu

variable (hE : SelfOK env)
include hE

mutual
theorem resolve_enumsIn : ∀ (d : Datum) (t : Ty) (v : Val), t.Closed env → resolve drop dv env env d t t = some v →
    EnumsIn env d t
  | .null, _, _, _, _ => trivial
  | .bool _, _, _, _, _ => trivial
  | .int _, _, _, _, _ => trivial
  | .long _, _, _, _, _ => trivial
  | .float _, _, _, _, _ => trivial
  | .double _, _, _, _, _ => trivial
  | .bytes _, _, _, _, _ => trivial
  | .string _, _, _, _, _ => trivial
  | .fixed _, _, _, _, _ => trivial
  | .enum i, t, v, ht, h => by
    cases t <;> simp only [resolve] at h <;> try (cases h; done)
    have h := self_intoReader env h rfl
    simp only [defAs] at h
    split at h <;> try (cases h; done)
    rename_i wd rd h1 h2
    rw [h1] at h2; cases h2
    split at h <;> try (cases h; done)
    cases hk : wd.kind <;> rw [hk] at h <;> simp only [enumAs] at h <;> try (cases h; done)
    refine ⟨_, _, _, _, rfl, h1, hk, ?_⟩
    split at h <;> try (cases h; done)
    rename_i hi
    split at hi
    · rename_i h0
      refine ⟨h0, ?_⟩
      have := (List.getElem?_eq_some_iff.1 hi).1
      omega
    · cases hi
  | .array ds, t, v, ht, h => by
    cases t <;> simp only [resolve] at h <;> try (cases h; done)
    have h := self_intoReader env h rfl
    simp only [Option.map_eq_some_iff] at h
    obtain ⟨a, h1, h2⟩ := h
    exact ⟨_, rfl, resolve_itemsIn ds _ a ht h1⟩
  | .map es, t, v, ht, h => by
    cases t <;> simp only [resolve] at h <;> try (cases h; done)
    have h := self_intoReader env h rfl
    simp only [Option.map_eq_some_iff] at h
    obtain ⟨a, h1, h2⟩ := h
    exact ⟨_, rfl, resolve_entriesIn es _ a ht h1⟩
  | .union i d, t, v, ht, h => by
    cases t <;> simp only [resolve] at h <;> try (cases h; done)
    split at h <;> try (cases h; done)
    rename_i ts t hi
    refine ⟨_, _, rfl, hi, ?_⟩
    split at h
    · rename_i hn; exact .inl hn
    · right
      simp only [pickBranch, findGoName ht.2.1 hi] at h
      simp only [Option.map_eq_some_iff] at h
      obtain ⟨a, h1, h2⟩ := h
      exact resolve_enumsIn d t a (allClosed_mem ht.2.2 (List.mem_of_getElem? hi)) h1
  | .record ds, t, v, ht, h => by
    cases t <;> simp only [resolve] at h <;> try (cases h; done)
    have h := self_intoReader env h rfl
    simp only [defAs] at h
    split at h <;> try (cases h; done)
    rename_i wd rd h1 h2
    rw [h1] at h2; cases h2
    split at h <;> try (cases h; done)
    cases hk : wd.kind <;> rw [hk] at h <;> try (cases h; done)
    rename_i q _ fs
    simp only at h
    split at h <;> try (cases h; done)
    rename_i slots hs
    refine ⟨_, _, _, rfl, h1, hk, ?_⟩
    refine resolve_fieldsIn ds fs fs 0 _ _ hs (fun f hf => hE.closed _ wd fs f h1 hk hf) ?_
    intro i f hi
    have := hE.apart.self h1 hk hi
    simpa using this
theorem resolve_itemsIn : ∀ (ds : List Datum) (t : Ty) (vs : List Val), t.Closed env →
    resolveItems drop dv env env ds t t = some vs → ItemsIn env ds t
  | [], _, _, _, _ => trivial
  | d :: ds, t, vs, ht, h => by
    simp only [resolveItems] at h
    split at h <;> try (cases h; done)
    rename_i v hv
    simp only [Option.map_eq_some_iff] at h
    obtain ⟨a, h1, h2⟩ := h
    exact ⟨resolve_enumsIn d t v ht hv, resolve_itemsIn ds t a ht h1⟩
theorem resolve_entriesIn : ∀ (ds : List (List Byte × Datum)) (t : Ty) (vs : List (List Byte × Val)), t.Closed env →
    resolveEntries drop dv env env ds t t = some vs → EntriesIn env ds t
  | [], _, _, _, _ => trivial
  | (k, d) :: ds, t, vs, ht, h => by
    simp only [resolveEntries] at h
    split at h <;> try (cases h; done)
    rename_i v hv
    simp only [Option.map_eq_some_iff] at h
    obtain ⟨a, h1, h2⟩ := h
    exact ⟨resolve_enumsIn d t v ht hv, resolve_entriesIn ds t a ht h1⟩
theorem resolve_fieldsIn : ∀ (ds : List Datum) (fs all : List Field) (k : Nat) (slots out : List (Option Val)),
    resolveFields drop dv env env ds fs all slots = some out → (∀ f ∈ fs, f.ty.Closed env) →
    (∀ i f, fs[i]? = some f → fieldByName all f.name = some (k + i, f)) → FieldsIn env ds fs
  | [], fs, all, k, slots, out, h, hc, hf => by cases fs with
    | nil => rfl
    | cons f fs => cases h
  | d :: ds, fs, all, k, slots, out, h, hc, hf => by
    cases fs with
    | nil => cases h
    | cons f fs =>
      have hf0 := hf 0 f rfl
      simp only [resolveFields, hf0] at h
      split at h <;> try (cases h; done)
      split at h <;> try (cases h; done)
      rename_i v hv
      refine ⟨f, fs, rfl, resolve_enumsIn d _ v (hc f (by simp)) hv, ?_⟩
      refine resolve_fieldsIn ds fs all (k + 1) _ _ h (fun g hg => hc g (List.mem_cons_of_mem _ hg)) ?_
      intro i g hg
      rw [hf (i + 1) g (by simpa using hg)]
      simp; omega
end
end

/-! ### reading -/

theorem parseRep_bad {α : Type} {p : List Byte → Out (α × List Byte)} : ∀ {ds es}, ReadsAll p ds es →
    ∀ {c : Nat} {x : List Byte} {l z}, es.length < c → parseRep p c (es.flatten ++ x) = .done (l, z) →
      ∃ a z', p x = .done (a, z') ∧ a ∈ l
  | [], es, h, c, x, l, z, hc, hp => by
    cases h
    obtain ⟨c, rfl⟩ : ∃ k, c = k + 1 := ⟨c - 1, by simp at hc; omega⟩
    simp only [List.flatten_nil, List.nil_append, parseRep] at hp
    cases h1 : p x with
    | timeout => rw [h1] at hp; simp [Out.bind] at hp
    | err e => rw [h1] at hp; simp [Out.bind] at hp
    | done y =>
      rw [h1] at hp
      simp only [Out.bind] at hp
      split at hp <;> try (simp at hp; done)
      simp only [Out.done.injEq, Prod.mk.injEq] at hp
      exact ⟨y.1, y.2, rfl, by rw [← hp.1]; simp⟩
  | d :: ds, es, h, c, x, l, z, hc, hp => by
    obtain ⟨e, es', rfl, hr, h'⟩ := h
    obtain ⟨c, rfl⟩ : ∃ k, c = k + 1 := ⟨c - 1, by simp at hc; omega⟩
    simp only [parseRep, List.flatten_cons, List.append_assoc, hr _, Out.bind] at hp
    split at hp <;> try (simp at hp; done)
    rename_i y hy
    simp only [Out.done.injEq, Prod.mk.injEq] at hp
    obtain ⟨a, z', h1, h2⟩ := parseRep_bad (c := c) h' (by simp at hc; omega) hy
    exact ⟨a, z', h1, by rw [← hp.1]; exact List.mem_cons_of_mem _ h2⟩

/-- What a successful reading of blocks did. -/
theorem parseBlocks_inv {α : Type} {k lim} {p : List Byte → Out (α × List Byte)} {n first} {c : BitVec 64}
    {r r1 : List Byte} {l z} (hl : readLong (flatOps k) r = .ok (c, r1)) (h0 : c ≠ 0) (hpos : 0 < c.toInt)
    (hp : parseBlocks (flatOps k) lim p (n + 1) first r = .done (l, z)) :
    ∃ l1 z1 l2, parseRep p c.toNat r1 = .done (l1, z1) ∧
      parseBlocks (flatOps k) lim p n false z1 = .done (l2, z) ∧ l = l1 ++ l2 := by
  simp only [parseBlocks, hl, if_neg h0, if_pos hpos, parseBlocks.items] at hp
  split at hp <;> try (simp at hp; done)
  cases h1 : parseRep p c.toNat r1 with
  | timeout => rw [h1] at hp; simp [Out.bind] at hp
  | err e => rw [h1] at hp; simp [Out.bind] at hp
  | done y =>
    rw [h1] at hp
    simp only [Out.bind] at hp
    split at hp <;> try (simp at hp; done)
    rename_i y2 h2
    simp only [Out.done.injEq, Prod.mk.injEq] at hp
    exact ⟨y.1, y.2, y2.1, rfl, by rw [h2, ← hp.2], hp.1.symm⟩

theorem parseBlocks_inv_neg {α : Type} {k lim} {p : List Byte → Out (α × List Byte)} {n first} {c c2 : BitVec 64}
    {r r1 r2 : List Byte} {l z} (hl : readLong (flatOps k) r = .ok (c, r1))
    (hl2 : readLong (flatOps k) r1 = .ok (c2, r2)) (h0 : c ≠ 0) (hpos : ¬ 0 < c.toInt)
    (hp : parseBlocks (flatOps k) lim p (n + 1) first r = .done (l, z)) :
    ∃ l1 z1 l2, parseRep p (-c).toNat r2 = .done (l1, z1) ∧
      parseBlocks (flatOps k) lim p n false z1 = .done (l2, z) ∧ l = l1 ++ l2 := by
  simp only [parseBlocks, hl, hl2, if_neg h0, if_neg hpos, parseBlocks.items] at hp
  split at hp <;> try (simp at hp; done)
  cases h1 : parseRep p (-c).toNat r2 with
  | timeout => rw [h1] at hp; simp [Out.bind] at hp
  | err e => rw [h1] at hp; simp [Out.bind] at hp
  | done y =>
    rw [h1] at hp
    simp only [Out.bind] at hp
    split at hp <;> try (simp at hp; done)
    rename_i y2 h2
    simp only [Out.done.injEq, Prod.mk.injEq] at hp
    exact ⟨y.1, y.2, y2.1, rfl, by rw [h2, ← hp.2], hp.1.symm⟩


theorem parseFields_bad {p : Ty → List Byte → Out (Datum × List Byte)} {f : Field} {gs : List Field} :
    ∀ {ds fs e} {x : List Byte} {l z}, (∀ rest, parseFields p fs (e ++ rest) = .done (ds, rest)) →
      parseFields p (fs ++ f :: gs) (e ++ x) = .done (l, z) →
      ∃ a z', p f.ty x = .done (a, z') ∧ l[fs.length]? = some a := by
  have split : ∀ (fs fs' : List Field) (r : List Byte), parseFields p (fs ++ fs') r =
      (parseFields p fs r).bind fun y => (parseFields p fs' y.2).bind fun y2 => .done (y.1 ++ y2.1, y2.2) := by
    intro fs fs'
    induction fs with
    | nil =>
      intro r
      simp only [List.nil_append, parseFields, Out.bind]
      cases parseFields p fs' r <;> rfl
    | cons g fs ih =>
      intro r
      simp only [List.cons_append, parseFields]
      cases p g.ty r with
      | timeout => rfl
      | err e => rfl
      | done y =>
        simp only [Out.bind]
        rw [ih]
        simp only [Out.bind]
        cases parseFields p fs y.2 with
        | timeout => rfl
        | err e => rfl
        | done y2 =>
          simp only
          cases parseFields p fs' y2.2 <;> rfl
  have len : ∀ (fs : List Field) (r : List Byte) y, parseFields p fs r = .done y → y.1.length = fs.length := by
    intro fs
    induction fs with
    | nil => intro r y h; simp only [parseFields, Out.done.injEq] at h; subst h; rfl
    | cons g fs ih =>
      intro r y h
      simp only [parseFields] at h
      cases h1 : p g.ty r with
      | timeout => rw [h1] at h; simp [Out.bind] at h
      | err e => rw [h1] at h; simp [Out.bind] at h
      | done y1 =>
        rw [h1] at h
        simp only [Out.bind] at h
        split at h <;> try (simp at h; done)
        rename_i y2 h2
        simp only [Out.done.injEq] at h
        subst h
        simp [ih _ _ h2]
  intro ds fs e x l z hr hp
  rw [split, hr] at hp
  simp only [Out.bind] at hp
  split at hp <;> try (simp at hp; done)
  rename_i y hy
  simp only [Out.done.injEq, Prod.mk.injEq] at hp
  simp only [parseFields] at hy
  cases h1 : p f.ty x with
  | timeout => rw [h1] at hy; simp [Out.bind] at hy
  | err e => rw [h1] at hy; simp [Out.bind] at hy
  | done y1 =>
    rw [h1] at hy
    simp only [Out.bind] at hy
    split at hy <;> try (simp at hy; done)
    simp only [Out.done.injEq] at hy
    refine ⟨y1.1, y1.2, rfl, ?_⟩
    have := len _ _ _ (hr [])
    simp only at this
    rw [← hp.1, ← hy, List.getElem?_append_right (by omega), this]
    simp


section
variable {α : Type} {k : Bool} {lim : Nat} {p : List Byte → Out (α × List Byte)} {ds : List α} {es : List (List Byte)}

theorem blocks_here (h : ReadsAll p ds es) {c : Nat} (hc : es.length < c) (h63 : c < 2 ^ 63) {x : List Byte} {n first l z}
    (hp : parseBlocks (flatOps k) lim p n first (encLong c ++ es.flatten ++ x) = .done (l, z)) :
    ∃ a z', p x = .done (a, z') ∧ a ∈ l := by
  cases n with
  | zero => simp [parseBlocks] at hp
  | succ n =>
    obtain ⟨z1, z2, z3, z4⟩ := bv_ofInt_pos c (by omega) h63
    rw [List.append_assoc] at hp
    obtain ⟨l1, r1, l2, h1, h2, rfl⟩ := parseBlocks_inv (readLong_encLong k _ (by omega) (by omega) _) z1 z2 hp
    rw [z3] at h1
    obtain ⟨a, z', h3, h4⟩ := parseRep_bad h hc h1
    exact ⟨a, z', h3, List.mem_append_left _ h4⟩

theorem blocks_hereSized (h : ReadsAll p ds es) {c : Nat} (hc : es.length < c) (h63 : c < 2 ^ 63) {x : List Byte} {n first l z}
    {sz : Int}
    (hp : parseBlocks (flatOps k) lim p n first (encLong (-c) ++ encLong sz ++ es.flatten ++ x) = .done (l, z)) :
    ∃ a z', p x = .done (a, z') ∧ a ∈ l := by
  cases n with
  | zero => simp [parseBlocks] at hp
  | succ n =>
    obtain ⟨z1, z2, z3, z4⟩ := bv_ofInt_pos c (by omega) h63
    obtain ⟨y1, y2, y3⟩ := bv_ofInt_neg c (by omega) h63
    rw [List.append_assoc, List.append_assoc] at hp
    obtain ⟨v, hv⟩ := readLong_encLong_some k sz (es.flatten ++ x)
    obtain ⟨l1, r1, l2, h1, h2, rfl⟩ := parseBlocks_inv_neg (readLong_encLong k _ (by omega) (by omega) _) hv y1 y2 hp
    rw [y3, z3] at h1
    obtain ⟨a, z', h3, h4⟩ := parseRep_bad h hc h1
    exact ⟨a, z', h3, List.mem_append_left _ h4⟩

theorem blocks_later (h : ReadsAll p ds es) (hc : es ≠ []) (h63 : es.length < 2 ^ 63) {x : List Byte} {n first l z}
    (hp : parseBlocks (flatOps k) lim p n first (encLong es.length ++ es.flatten ++ x) = .done (l, z)) :
    ∃ n' l', parseBlocks (flatOps k) lim p n' false x = .done (l', z) ∧ ∀ a ∈ l', a ∈ l := by
  have hpos : 0 < es.length := by cases es <;> simp_all
  cases n with
  | zero => simp [parseBlocks] at hp
  | succ n =>
    obtain ⟨z1, z2, z3, z4⟩ := bv_ofInt_pos es.length hpos h63
    rw [List.append_assoc] at hp
    obtain ⟨l1, r1, l2, h1, h2, rfl⟩ := parseBlocks_inv (readLong_encLong k _ (by omega) (by omega) _) z1 z2 hp
    rw [z3, ← readsAll_length h, parseRep_reads h] at h1
    cases h1
    exact ⟨n, l2, h2, fun a ha => List.mem_append_right _ ha⟩

theorem blocks_laterSized (h : ReadsAll p ds es) (hc : es ≠ []) (h63 : es.length < 2 ^ 63) {x : List Byte} {n first l z}
    {sz : Int}
    (hp : parseBlocks (flatOps k) lim p n first (encLong (-es.length) ++ encLong sz ++ es.flatten ++ x) = .done (l, z)) :
    ∃ n' l', parseBlocks (flatOps k) lim p n' false x = .done (l', z) ∧ ∀ a ∈ l', a ∈ l := by
  have hpos : 0 < es.length := by cases es <;> simp_all
  cases n with
  | zero => simp [parseBlocks] at hp
  | succ n =>
    obtain ⟨z1, z2, z3, z4⟩ := bv_ofInt_pos es.length hpos h63
    obtain ⟨y1, y2, y3⟩ := bv_ofInt_neg es.length hpos h63
    rw [List.append_assoc, List.append_assoc] at hp
    obtain ⟨v, hv⟩ := readLong_encLong_some k sz (es.flatten ++ x)
    obtain ⟨l1, r1, l2, h1, h2, rfl⟩ := parseBlocks_inv_neg (readLong_encLong k _ (by omega) (by omega) _) hv y1 y2 hp
    rw [y3, z3, ← readsAll_length h, parseRep_reads h] at h1
    cases h1
    exact ⟨n, l2, h2, fun a ha => List.mem_append_right _ ha⟩
end

theorem items_mono {k lim env m m' t n first bs x} (hm : m ≤ m')
    (h : parseBlocks (flatOps k) lim (parse (flatOps k) lim env m t) n first bs = .done x) :
    parseBlocks (flatOps k) lim (parse (flatOps k) lim env m' t) n first bs = .done x := by
  obtain ⟨s, h1, h2⟩ := (relF_blocks (prims_eq (flatOps k)) lim (parse_rel (prims_eq (flatOps k)) lim env m m' hm t) n n
    (Nat.le_refl n) first).fwd bs x.1 x.2 h trivial bs rfl
  subst h2; exact h1

theorem entries_mono {k lim env m m' t n first bs x} (hm : m ≤ m')
    (h : parseBlocks (flatOps k) lim (parseEntry (flatOps k) (parse (flatOps k) lim env m t)) n first bs = .done x) :
    parseBlocks (flatOps k) lim (parseEntry (flatOps k) (parse (flatOps k) lim env m' t)) n first bs = .done x := by
  obtain ⟨s, h1, h2⟩ := (relF_blocks (prims_eq (flatOps k)) lim
    (relF_entry (prims_eq (flatOps k)) (parse_rel (prims_eq (flatOps k)) lim env m m' hm t)) n n
    (Nat.le_refl n) first).fwd bs x.1 x.2 h trivial bs rfl
  subst h2; exact h1

theorem entry_inv {k lim env m t} {key bs : List Byte} (hk : key.length ≤ 2147483647) {a z}
    (h : parseEntry (flatOps k) (parse (flatOps k) lim env m t) (encLong key.length ++ key ++ bs) = .done (a, z)) :
    ∃ d, parse (flatOps k) lim env m t bs = .done (d, z) ∧ a = (key, d) := by
  simp only [parseEntry, readString, readSized_enc _ k key bs hk] at h
  cases h1 : parse (flatOps k) lim env m t bs with
  | timeout => rw [h1] at h; simp [Out.bind] at h
  | err e => rw [h1] at h; simp [Out.bind] at h
  | done y =>
    rw [h1] at h
    simp only [Out.bind, Out.done.injEq, Prod.mk.injEq] at h
    exact ⟨y.1, by rw [← h.2], h.1.symm⟩

section
variable {env : Env} {lim : Nat} {enums : Bool} (k : Bool) (hl : lim < 2 ^ 63)
include hl

mutual
theorem badIndex_parse : ∀ {t bs}, BadIndex env lim enums t bs → ∀ n d z,
    parse (flatOps k) lim env n t bs = .done (d, z) → enums = true ∧ ¬ EnumsIn env d t
  | _, _, .union h, n, d, z, hp => by
    obtain ⟨hr, h1, h2⟩ := h
    cases n with
    | zero => simp [parse] at hp
    | succ n =>
      rename_i ts i rest
      simp only [parse, readLong_encLong k _ h1 h2] at hp
      have : atIndex ts (BitVec.ofInt 64 i) = none := by
        unfold atIndex
        rw [bmod_id _ h1 h2]
        split
        · rw [List.getElem?_eq_none]; omega
        · rfl
      rw [this] at hp
      simp at hp
  | _, _, .enum he hq hk h, n, d, z, hp => by
    refine ⟨he, ?_⟩
    obtain ⟨hr, h1, h2⟩ := h
    cases n with
    | zero => simp [parse] at hp
    | succ n =>
      simp only [parse, hq, parseDef, hk, readLong_encLong k _ h1 h2, lift, Out.done.injEq, Prod.mk.injEq] at hp
      obtain ⟨rfl, rfl⟩ := hp
      rintro ⟨q', d', ss', df', h3, h4, h5, h6⟩
      cases h3
      rw [hq] at h4; cases h4
      rw [hk] at h5; cases h5
      rw [bmod_id _ h1 h2] at h6
      omega
  | _, _, .member hi hu hb, n, d, z, hp => by
    cases n with
    | zero => simp [parse] at hp
    | succ n =>
      rename_i ts u bs i
      simp only [parse, readLong_encLong k _ (show -(2 ^ 63) ≤ (i : Int) by omega) (show (i : Int) < 2 ^ 63 by omega)] at hp
      have h3 := bmod_id (i : Int) (by omega) (by omega)
      have : atIndex ts (BitVec.ofInt 64 i) = some u := by
        unfold atIndex
        rw [h3, if_pos (by omega)]
        simpa using hu
      rw [this] at hp
      simp only at hp
      cases h1 : parse (flatOps k) lim env n u bs with
      | timeout => rw [h1] at hp; simp [Out.bind] at hp
      | err e => rw [h1] at hp; simp [Out.bind] at hp
      | done y =>
        obtain ⟨d', z'⟩ := y
        obtain ⟨he, hn⟩ := badIndex_parse hb n d' z' h1
        refine ⟨he, ?_⟩
        rw [h1] at hp
        simp only [Out.bind, Out.done.injEq, Prod.mk.injEq] at hp
        obtain ⟨rfl, rfl⟩ := hp
        rintro ⟨ts', u', h4, h5, h6⟩
        cases h4
        have : (BitVec.ofInt 64 (i : Int)).toNat = i := by simp; omega
        rw [this, hu] at h5; cases h5
        rcases h6 with h6 | h6
        · cases u <;> simp [Ty.isNull] at h6
          nomatch hb
        · exact hn h6
  | _, _, .field hq hk he hw hb, n, d, z, hp => by
    rename_i q df fs f gs ds e bs
    have hp := parse_mono (show n ≤ n + 1 + Datum.sizes ds by omega) hp
    rw [show n + 1 + Datum.sizes ds = (n + Datum.sizes ds) + 1 by omega] at hp
    simp only [parse, hq, parseDef, hk] at hp
    cases h1 : parseFields (parse (flatOps k) lim env (n + Datum.sizes ds)) (fs ++ f :: gs) (e ++ bs) with
    | timeout => rw [h1] at hp; simp [Out.bind] at hp
    | err e => rw [h1] at hp; simp [Out.bind] at hp
    | done y =>
      rw [h1] at hp
      simp only [Out.bind, Out.done.injEq, Prod.mk.injEq] at hp
      obtain ⟨rfl, rfl⟩ := hp
      obtain ⟨a, z', h2, h3⟩ := parseFields_bad
        (fun rest => parse_encFields k hl env ds fs e he hw (n + Datum.sizes ds) (by omega) rest) h1
      obtain ⟨h4, h5⟩ := badIndex_parse hb _ _ _ h2
      refine ⟨h4, ?_⟩
      rintro ⟨q', d', fs', h6, h7, h8, h9⟩
      cases h6
      rw [hq] at h7; cases h7
      rw [hk] at h8; cases h8
      exact h5 (fieldsIn_get env h9 _ _ h3 (by simp))
  | _, _, .array (item := item) (bs := bs) hb, n, d, z, hp => by
    cases n with
    | zero => simp [parse] at hp
    | succ n =>
      simp only [parse] at hp
      cases h1 : parseBlocks (flatOps k) lim (parse (flatOps k) lim env n item) n true bs with
      | timeout => rw [h1] at hp; simp [Out.bind] at hp
      | err e => rw [h1] at hp; simp [Out.bind] at hp
      | done y =>
        rw [h1] at hp
        simp only [Out.bind, Out.done.injEq, Prod.mk.injEq] at hp
        obtain ⟨rfl, rfl⟩ := hp
        obtain ⟨he, a, h2, h3⟩ := badItem_parse hb n n true y.1 y.2 h1
        refine ⟨he, ?_⟩
        rintro ⟨item', h4, h5⟩
        cases h4
        exact h3 (itemsIn_mem env h5 h2)
  | _, _, .map (item := item) (bs := bs) hb, n, d, z, hp => by
    cases n with
    | zero => simp [parse] at hp
    | succ n =>
      simp only [parse] at hp
      cases h1 : parseBlocks (flatOps k) lim (parseEntry (flatOps k) (parse (flatOps k) lim env n item)) n true bs with
      | timeout => rw [h1] at hp; simp [Out.bind] at hp
      | err e => rw [h1] at hp; simp [Out.bind] at hp
      | done y =>
        rw [h1] at hp
        simp only [Out.bind, Out.done.injEq, Prod.mk.injEq] at hp
        obtain ⟨rfl, rfl⟩ := hp
        obtain ⟨he, a, b, h2, h3⟩ := badEntry_parse hb n n true y.1 y.2 h1
        refine ⟨he, ?_⟩
        rintro ⟨item', h4, h5⟩
        cases h4
        exact h3 (entriesIn_mem env h5 h2)
theorem badItem_parse : ∀ {t bs}, BadItem env lim enums t bs → ∀ m n first ds z,
    parseBlocks (flatOps k) lim (parse (flatOps k) lim env m t) n first bs = .done (ds, z) →
    enums = true ∧ ∃ d, d ∈ ds ∧ ¬ EnumsIn env d t
  | _, _, .here he hw hc h63 hb, m, n, first, out, z, hp => by
    rename_i item ds es bs c
    have hp := items_mono (show m ≤ m + Datum.sizes ds by omega) hp
    obtain ⟨a, z', h1, h2⟩ := blocks_here (parse_encAll k hl env ds _ es he hw (m + Datum.sizes ds) (by omega)) hc h63 hp
    obtain ⟨h3, h4⟩ := badIndex_parse hb _ _ _ h1
    exact ⟨h3, a, h2, h4⟩
  | _, _, .hereSized he hw hc h63 hb, m, n, first, out, z, hp => by
    rename_i item ds es bs sz c
    have hp := items_mono (show m ≤ m + Datum.sizes ds by omega) hp
    obtain ⟨a, z', h1, h2⟩ := blocks_hereSized (parse_encAll k hl env ds _ es he hw (m + Datum.sizes ds) (by omega)) hc h63 hp
    obtain ⟨h3, h4⟩ := badIndex_parse hb _ _ _ h1
    exact ⟨h3, a, h2, h4⟩
  | _, _, .later he hw hc h63 hb, m, n, first, out, z, hp => by
    rename_i item ds es bs
    have hp := items_mono (show m ≤ m + Datum.sizes ds by omega) hp
    obtain ⟨n', l', h1, h2⟩ := blocks_later (parse_encAll k hl env ds _ es he hw (m + Datum.sizes ds) (by omega)) hc h63 hp
    obtain ⟨h3, a, h4, h5⟩ := badItem_parse hb _ _ _ _ _ h1
    exact ⟨h3, a, h2 a h4, h5⟩
  | _, _, .laterSized he hw hc h63 hb, m, n, first, out, z, hp => by
    rename_i item ds es bs sz
    have hp := items_mono (show m ≤ m + Datum.sizes ds by omega) hp
    obtain ⟨n', l', h1, h2⟩ := blocks_laterSized (parse_encAll k hl env ds _ es he hw (m + Datum.sizes ds) (by omega)) hc h63 hp
    obtain ⟨h3, a, h4, h5⟩ := badItem_parse hb _ _ _ _ _ h1
    exact ⟨h3, a, h2 a h4, h5⟩
theorem badEntry_parse : ∀ {t bs}, BadEntry env lim enums t bs → ∀ m n first ds z,
    parseBlocks (flatOps k) lim (parseEntry (flatOps k) (parse (flatOps k) lim env m t)) n first bs = .done (ds, z) →
    enums = true ∧ ∃ key d, (key, d) ∈ ds ∧ ¬ EnumsIn env d t
  | _, _, .here he hw hc h63 hk hb, m, n, first, out, z, hp => by
    rename_i item ds es bs key c
    have hp := entries_mono (show m ≤ m + Datum.entrySizes ds by omega) hp
    obtain ⟨a, z', h1, h2⟩ := blocks_here (parse_encEntries k hl env ds _ es he hw (m + Datum.entrySizes ds) (by omega)) hc h63 hp
    obtain ⟨d, h1', rfl⟩ := entry_inv hk h1
    obtain ⟨h3, h4⟩ := badIndex_parse hb _ _ _ h1'
    exact ⟨h3, _, d, h2, h4⟩
  | _, _, .hereSized he hw hc h63 hk hb, m, n, first, out, z, hp => by
    rename_i item ds es bs key sz c
    have hp := entries_mono (show m ≤ m + Datum.entrySizes ds by omega) hp
    obtain ⟨a, z', h1, h2⟩ := blocks_hereSized (parse_encEntries k hl env ds _ es he hw (m + Datum.entrySizes ds) (by omega)) hc h63 hp
    obtain ⟨d, h1', rfl⟩ := entry_inv hk h1
    obtain ⟨h3, h4⟩ := badIndex_parse hb _ _ _ h1'
    exact ⟨h3, _, d, h2, h4⟩
  | _, _, .later he hw hc h63 hb, m, n, first, out, z, hp => by
    rename_i item ds es bs
    have hp := entries_mono (show m ≤ m + Datum.entrySizes ds by omega) hp
    obtain ⟨n', l', h1, h2⟩ := blocks_later (parse_encEntries k hl env ds _ es he hw (m + Datum.entrySizes ds) (by omega)) hc h63 hp
    obtain ⟨h3, a, b, h4, h5⟩ := badEntry_parse hb _ _ _ _ _ h1
    exact ⟨h3, a, b, h2 _ h4, h5⟩
  | _, _, .laterSized he hw hc h63 hb, m, n, first, out, z, hp => by
    rename_i item ds es bs sz
    have hp := entries_mono (show m ≤ m + Datum.entrySizes ds by omega) hp
    obtain ⟨n', l', h1, h2⟩ := blocks_laterSized (parse_encEntries k hl env ds _ es he hw (m + Datum.entrySizes ds) (by omega)) hc h63 hp
    obtain ⟨h3, a, b, h4, h5⟩ := badEntry_parse hb _ _ _ _ _ h1
    exact ⟨h3, a, b, h2 _ h4, h5⟩
end
end
end Verif
