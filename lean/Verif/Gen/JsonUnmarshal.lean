import Verif.Gen.JsonMarshal
/-
`UnmarshalJSON` reads JSON encodings.
-/
namespace Verif
open Val (Textual AllTextual EntriesTextual nesting nestings nestingsOf)

variable {nm : Namer} {env : Env} {lim : Nat}

/-! Nesting -/

theorem depthsOf_le {kvs : List (Str × JTree)} {n : Nat} (h : ∀ kv ∈ kvs, kv.2.depth ≤ n) : JTree.depthsOf kvs ≤ n := by
  induction kvs with
  | nil => simp [JTree.depthsOf]
  | cons kv kvs ih =>
    obtain ⟨k, j⟩ := kv
    simp only [JTree.depthsOf]
    have := h (k, j) (by simp)
    have := ih fun kv hkv => h kv (by simp [hkv])
    dsimp only at *
    omega

theorem floatNum_num {F : Fmt} {b : BitVec F.width} {j : JTree} (h : floatNum F b = .ok j) : ∃ x, j = .num x := by
  unfold floatNum at h
  split at h
  · cases h
  · cases h; exact ⟨_, rfl⟩

mutual
/-- The text is nested no deeper than the value. -/
theorem marshal_depth : ∀ (v : Val) (t : Ty) {j : JTree}, marshal env v t = .ok j → j.depth ≤ v.nesting
  | .null, t, j, h => by cases t <;> simp only [marshal] at h <;> cases h; simp [JTree.depth]
  | .bool b, t, j, h => by cases t <;> simp only [marshal] at h <;> cases h; simp [JTree.depth]
  | .int v, t, j, h => by cases t <;> simp only [marshal] at h <;> cases h; simp [JTree.depth]
  | .long v, t, j, h => by cases t <;> simp only [marshal] at h <;> cases h; simp [JTree.depth]
  | .float b, t, j, h => by
    cases t <;> simp only [marshal] at h <;> try cases h
    obtain ⟨x, rfl⟩ := floatNum_num h
    simp [JTree.depth]
  | .double b, t, j, h => by
    cases t <;> simp only [marshal] at h <;> try cases h
    obtain ⟨x, rfl⟩ := floatNum_num h
    simp [JTree.depth]
  | .bytes bs, t, j, h => by cases t <;> simp only [marshal] at h <;> cases h; simp [JTree.depth]
  | .string bs, t, j, h => by cases t <;> simp only [marshal] at h <;> cases h; simp [JTree.depth]
  | .fixed bs, t, j, h => by
    cases t with
    | ref q =>
      simp only [marshal] at h
      cases hq : env.find q with
      | none => rw [hq] at h; cases h
      | some d =>
        rw [hq] at h
        cases hk : d.kind <;> simp only [hk] at h <;> cases h
        simp [JTree.depth]
    | _ => simp only [marshal] at h; cases h
  | .enum v, t, j, h => by
    cases t with
    | ref q =>
      simp only [marshal] at h
      cases hq : env.find q with
      | none => rw [hq] at h; cases h
      | some d =>
        rw [hq] at h
        cases hk : d.kind <;> simp only [hk] at h <;> cases h
        simp [JTree.depth]
    | _ => simp only [marshal] at h; cases h
  | .array vs, t, j, h => by
    cases t with
    | array item =>
      simp only [marshal] at h
      obtain ⟨js, h', rfl⟩ := jmap_inv h
      have := marshalItems_depth vs item h'
      simp only [JTree.depth, nesting]
      omega
    | _ => simp only [marshal] at h; cases h
  | .map es, t, j, h => by
    cases t with
    | map item =>
      simp only [marshal] at h
      obtain ⟨m, h', rfl⟩ := jmap_inv h
      have := marshalEntries_depth es item h'
      simp only [rawObject, JTree.depth, nesting]
      have := depthsOf_le (kvs := m.map fun e => (fromUtf8 e.1, e.2)) (n := nestingsOf es) (by
        intro kv hkv
        obtain ⟨e, he, rfl⟩ := List.mem_map.1 hkv
        exact this e he)
      omega
    | _ => simp only [marshal] at h; cases h
  | .nil, t, j, h => by
    cases t <;> simp only [marshal] at h <;> try cases h
    · simp [JTree.depth]
    · simp [JTree.depth]
    · split at h <;> cases h
      simp [JTree.depth]
  | .union _ none, t, j, h => by simp only [marshal] at h; cases h
  | .union tag (some v), t, j, h => by
    cases t with
    | union ts =>
      simp only [marshal] at h
      cases hu : unionCase ts tag with
      | none => rw [hu] at h; cases h
      | some u =>
        rw [hu] at h
        dsimp only at h
        cases hk : unionKey env u with
        | none => rw [hk] at h; cases h
        | some k =>
          rw [hk] at h
          obtain ⟨j', h', rfl⟩ := jmap_inv h
          have := marshal_depth v u h'
          simp only [JTree.depth, JTree.depthsOf, nesting]
          omega
    | _ => simp only [marshal] at h; cases h
  | .record vs, t, j, h => by
    cases t with
    | ref q =>
      simp only [marshal] at h
      cases hq : env.find q with
      | none => rw [hq] at h; cases h
      | some d =>
        rw [hq] at h
        cases hk : d.kind with
        | record fs =>
          simp only [hk] at h
          obtain ⟨es, h', rfl⟩ := jmap_inv h
          have := marshalFields_depth vs fs h'
          simp only [rawObject, JTree.depth, nesting]
          have := depthsOf_le (kvs := (mapOf es).map fun e => (fromUtf8 e.1, e.2)) (n := nestings vs) (by
            intro kv hkv
            obtain ⟨e, he, rfl⟩ := List.mem_map.1 hkv
            exact this e (mem_mapOf he))
          omega
        | _ => simp only [hk] at h; cases h
    | _ => simp only [marshal] at h; cases h
theorem marshalItems_depth : ∀ (vs : List Val) (t : Ty) {js : List JTree}, marshalItems env vs t = .ok js →
    JTree.depths js ≤ nestings vs
  | [], t, js, h => by simp only [marshalItems] at h; cases h; simp [JTree.depths]
  | v :: vs, t, js, h => by
    simp only [marshalItems] at h
    obtain ⟨j, h1, h⟩ := jbind_inv h
    obtain ⟨js, h2, rfl⟩ := jmap_inv h
    have := marshal_depth v t h1
    have := marshalItems_depth vs t h2
    simp only [JTree.depths, nestings]
    omega
theorem marshalEntries_depth : ∀ (es : List (List Byte × Val)) (t : Ty) {m : List (List Byte × JTree)},
    marshalEntries env es t = .ok m → ∀ e ∈ m, e.2.depth ≤ nestingsOf es
  | [], t, m, h => by simp only [marshalEntries] at h; cases h; simp
  | (k, v) :: es, t, m, h => by
    simp only [marshalEntries] at h
    obtain ⟨j, h1, h⟩ := jbind_inv h
    obtain ⟨m, h2, rfl⟩ := jmap_inv h
    have h3 := marshal_depth v t h1
    have h4 := marshalEntries_depth es t h2
    simp only [nestingsOf]
    intro e he
    rcases List.mem_cons.1 he with rfl | he
    · dsimp only; omega
    · have := h4 e he; omega
theorem marshalFields_depth : ∀ (vs : List Val) (fs : List Field) {m : List (List Byte × JTree)},
    marshalFields env vs fs = .ok m → ∀ e ∈ m, e.2.depth ≤ nestings vs
  | [], fs, m, h => by cases fs <;> simp only [marshalFields] at h <;> cases h; simp
  | v :: vs, fs, m, h => by
    cases fs with
    | nil => simp only [marshalFields] at h; cases h
    | cons f fs =>
      simp only [marshalFields] at h
      obtain ⟨j, h1, h⟩ := jbind_inv h
      obtain ⟨m, h2, rfl⟩ := jmap_inv h
      have h3 := marshal_depth v f.ty h1
      have h4 := marshalFields_depth vs fs h2
      simp only [nestings]
      intro e he
      rcases List.mem_cons.1 he with rfl | he
      · dsimp only; omega
      · have := h4 e he; omega
end

/-! Only numbers are written -/

theorem floatNum_finite {F : Fmt} {b : BitVec F.width} {j : JTree} (h : floatNum F b = .ok j) : F.IsFinite b := by
  unfold floatNum at h
  split at h
  · cases h
  · rename_i hn
    exact (finite_iff F _).2 (by omega)

open Val (Finite AllFinite EntriesFinite)

mutual
theorem marshal_finite : ∀ (v : Val) (t : Ty) {j : JTree}, marshal env v t = .ok j → v.Finite
  | .null, _, _, _ => trivial
  | .bool _, _, _, _ => trivial
  | .int _, _, _, _ => trivial
  | .long _, _, _, _ => trivial
  | .float b, t, j, h => by
    cases t <;> simp only [marshal] at h <;> try cases h
    simp only [Finite]
    exact floatNum_finite h
  | .double b, t, j, h => by
    cases t <;> simp only [marshal] at h <;> try cases h
    simp only [Finite]
    exact floatNum_finite h
  | .bytes _, _, _, _ => trivial
  | .string _, _, _, _ => trivial
  | .fixed _, _, _, _ => trivial
  | .enum _, _, _, _ => trivial
  | .array vs, t, j, h => by
    cases t with
    | array item =>
      simp only [marshal] at h
      obtain ⟨js, h', _⟩ := jmap_inv h
      simp only [Finite]
      exact marshalItems_finite vs item h'
    | _ => simp only [marshal] at h; cases h
  | .map es, t, j, h => by
    cases t with
    | map item =>
      simp only [marshal] at h
      obtain ⟨m, h', _⟩ := jmap_inv h
      simp only [Finite]
      exact marshalEntries_finite es item h'
    | _ => simp only [marshal] at h; cases h
  | .nil, _, _, _ => trivial
  | .union _ none, _, _, _ => trivial
  | .union tag (some v), t, j, h => by
    cases t with
    | union ts =>
      simp only [marshal] at h
      cases hu : unionCase ts tag with
      | none => rw [hu] at h; cases h
      | some u =>
        rw [hu] at h
        dsimp only at h
        cases hk : unionKey env u with
        | none => rw [hk] at h; cases h
        | some k =>
          rw [hk] at h
          obtain ⟨j', h', _⟩ := jmap_inv h
          simp only [Finite]
          exact marshal_finite v u h'
    | _ => simp only [marshal] at h; cases h
  | .record vs, t, j, h => by
    cases t with
    | ref q =>
      simp only [marshal] at h
      cases hq : env.find q with
      | none => rw [hq] at h; cases h
      | some d =>
        rw [hq] at h
        cases hk : d.kind with
        | record fs =>
          simp only [hk] at h
          obtain ⟨es, h', _⟩ := jmap_inv h
          simp only [Finite]
          exact marshalFields_finite vs fs h'
        | _ => simp only [hk] at h; cases h
    | _ => simp only [marshal] at h; cases h
theorem marshalItems_finite : ∀ (vs : List Val) (t : Ty) {js : List JTree}, marshalItems env vs t = .ok js → AllFinite vs
  | [], _, _, _ => trivial
  | v :: vs, t, js, h => by
    simp only [marshalItems] at h
    obtain ⟨j, h1, h⟩ := jbind_inv h
    obtain ⟨js, h2, _⟩ := jmap_inv h
    exact ⟨marshal_finite v t h1, marshalItems_finite vs t h2⟩
theorem marshalEntries_finite : ∀ (es : List (List Byte × Val)) (t : Ty) {m : List (List Byte × JTree)},
    marshalEntries env es t = .ok m → EntriesFinite es
  | [], _, _, _ => trivial
  | (k, v) :: es, t, m, h => by
    simp only [marshalEntries] at h
    obtain ⟨j, h1, h⟩ := jbind_inv h
    obtain ⟨m, h2, _⟩ := jmap_inv h
    exact ⟨marshal_finite v t h1, marshalEntries_finite es t h2⟩
theorem marshalFields_finite : ∀ (vs : List Val) (fs : List Field) {m : List (List Byte × JTree)},
    marshalFields env vs fs = .ok m → AllFinite vs
  | [], _, _, _ => trivial
  | v :: vs, fs, m, h => by
    cases fs with
    | nil => simp only [marshalFields] at h; cases h
    | cons f fs =>
      simp only [marshalFields] at h
      obtain ⟨j, h1, h⟩ := jbind_inv h
      obtain ⟨m, h2, _⟩ := jmap_inv h
      exact ⟨marshal_finite v f.ty h1, marshalFields_finite vs fs h2⟩
end

/-! The readers of parts -/

theorem readers_eq (n : Nat) : ∀ js, readers nm env n js = js.map (unmarshal nm env n)
  | [] => rfl
  | j :: js => by simp only [readers, List.map_cons, readers_eq n js]

theorem keyed_eq (n : Nat) : ∀ kvs, keyed nm env n kvs = kvs.map fun kv => (kv.1, unmarshal nm env n kv.2)
  | [] => rfl
  | (k, j) :: kvs => by simp only [keyed, List.map_cons, keyed_eq n kvs]

theorem lastMember_map {α β : Type} (f : α → β) (kvs : List (Str × α)) (k : Str) :
    lastMember (kvs.map fun kv => (kv.1, f kv.2)) k = (lastMember kvs k).map f := by
  induction kvs with
  | nil => rfl
  | cons kv kvs ih =>
    simp only [List.map_cons, lastMember, ih]
    cases lastMember kvs k with
    | some y => rfl
    | none => simp only [Option.map_none]; split <;> rfl

theorem member_none {α : Type} {kvs : List (Str × α)} {k : Str} (h : k ∉ kvs.map Prod.fst) : member kvs k = none := by
  induction kvs with
  | nil => rfl
  | cons kv kvs ih =>
    rw [List.map_cons, List.mem_cons, not_or] at h
    rw [member, if_neg (fun e => h.1 e.symm), ih h.2]

theorem lastMember_nodup {α : Type} {kvs : List (Str × α)} (h : (kvs.map Prod.fst).Nodup) (k : Str) :
    lastMember kvs k = member kvs k := by
  induction kvs with
  | nil => rfl
  | cons kv kvs ih =>
    rw [List.map_cons, List.nodup_cons] at h
    rw [lastMember, member, ih h.2]
    by_cases hk : kv.1 = k
    · rw [if_pos hk, if_pos hk, member_none (hk ▸ h.1)]
    · rw [if_neg hk, if_neg hk]
      cases member kvs k <;> rfl

theorem firstOf_eq {n : Nat} {kvs : List (Str × JTree)} (h : (kvs.map Prod.fst).Nodup) (ks : List Str) :
    firstOf (lastMember (keyed nm env n kvs)) ks = (firstMember kvs ks).map (unmarshal nm env n) := by
  induction ks with
  | nil => rfl
  | cons k ks ih =>
    rw [firstOf, firstMember, keyed_eq, lastMember_map, lastMember_nodup h]
    cases member kvs k with
    | some j => rfl
    | none => rw [← keyed_eq]; exact ih

theorem inJson_some {f : Field} {ext : Bool} {kvs : List (Str × JTree)} {j : JTree} (h : f.inJson ext kvs = some j) :
    firstMember kvs (f.name :: f.aliases) = some j := by
  unfold Field.inJson at h
  cases ext with
  | true => exact h
  | false =>
    simp only [firstMember] at h ⊢
    cases hm : member kvs f.name with
    | some j' => rw [hm] at h; exact h
    | none => rw [hm] at h; cases h

theorem itemsInto_ok {t : Ty} : ∀ {rs : List Read} {cs vs : List Val}, rs.length = vs.length →
    (∀ (i : Nat) r v, rs[i]? = some r → vs[i]? = some v → r t (cs[i]?.getD (jsonZero env t)) = .ok v) →
    itemsInto env t rs cs = .ok vs
  | [], cs, [], _, _ => rfl
  | [], cs, _ :: _, hl, _ => by simp at hl
  | _ :: _, cs, [], hl, _ => by simp at hl
  | r :: rs, cs, v :: vs, hl, h => by
    rw [itemsInto]
    have h0 := h 0 r v rfl rfl
    have e : cs.headD (jsonZero env t) = cs[0]?.getD (jsonZero env t) := by cases cs <;> rfl
    rw [e, jbind_ok h0]
    refine jmap_ok (itemsInto_ok (by simpa using hl) fun i r' v' hr hv => ?_)
    have := h (i + 1) r' v' (by simpa using hr) (by simpa using hv)
    rwa [show cs[i + 1]? = cs.tail[i]? by cases cs <;> simp] at this

theorem fieldsInto_ok {n : Nat} {get : Str → Option Read} : ∀ {fs : List Field} {cs vs : List Val}, fs.length = vs.length →
    (∀ (i : Nat) f v, fs[i]? = some f → vs[i]? = some v → fieldInto nm env n get f (cs[i]?.getD (jsonZero env f.ty)) = .ok v) →
    fieldsInto nm env n get fs cs = .ok vs
  | [], cs, [], _, _ => rfl
  | [], cs, _ :: _, hl, _ => by simp at hl
  | _ :: _, cs, [], hl, _ => by simp at hl
  | f :: fs, cs, v :: vs, hl, h => by
    rw [fieldsInto]
    have h0 := h 0 f v rfl rfl
    have e : cs.headD (jsonZero env f.ty) = cs[0]?.getD (jsonZero env f.ty) := by cases cs <;> rfl
    rw [e]
    rw [jbind_ok h0]
    refine jmap_ok (fieldsInto_ok (by simpa using hl) fun i f' v' hr hv => ?_)
    have := h (i + 1) f' v' (by simpa using hr) (by simpa using hv)
    rwa [show cs[i + 1]? = cs.tail[i]? by cases cs <;> simp] at this

theorem entriesInto_ok {n : Nat} {t : Ty} : ∀ {kvs : List (Str × JTree)} {vs : List Val} {m : List (List Byte × Val)},
    kvs.length = vs.length →
    (∀ (i : Nat) kv v, kvs[i]? = some kv → vs[i]? = some v → unmarshal nm env n kv.2 t (jsonZero env t) = .ok v) →
    entriesInto env t (keyed nm env n kvs) m = .ok (mapInserts m ((kvs.map fun kv => utf8 kv.1).zip vs))
  | [], [], _, _, _ => rfl
  | [], _ :: _, _, hl, _ => by simp at hl
  | _ :: _, [], _, hl, _ => by simp at hl
  | (k, j) :: kvs, v :: vs, m, hl, h => by
    rw [keyed, entriesInto, jbind_ok (h 0 (k, j) v rfl rfl)]
    exact entriesInto_ok (by simpa using hl) fun i kv v hk hv => h (i + 1) kv v (by simpa using hk) (by simpa using hv)

theorem membersInto_ok {nul : Option Nat} {k : Str} {r : Read} {cur : Val} {t : Ty} (hk : unionKey env t = some k) :
    ∀ {ts : List Ty} {i : Nat} (i0 : Nat), ts[i]? = some t →
    (∀ i' t', i' < i → ts[i']? = some t' → unionKey env t' ≠ some k) → nul ≠ some (i0 + i) →
    membersInto env nul (lastMember [(k, r)]) cur ts i0 =
      (r t (memberCur env t (i0 + i) cur)).map fun v => .union (BitVec.ofNat 64 (i0 + i)) (some v)
  | [], i, i0, h, _, _ => by simp at h
  | u :: ts, 0, i0, h, _, hn => by
    simp at h
    subst h
    rw [membersInto, if_neg (by simpa using hn), hk]
    simp [lastMember]
  | u :: ts, i + 1, i0, h, he, hn => by
    have ih := membersInto_ok hk (ts := ts) (i := i) (nul := nul) (r := r) (cur := cur) (i0 + 1) (by simpa using h)
      (fun i' t' hi' ht' => he (i' + 1) t' (by omega) (by simpa using ht')) (by rwa [Nat.add_right_comm])
    rw [Nat.add_right_comm] at ih
    rw [Nat.add_assoc] at ih
    rw [membersInto]
    split
    · exact ih
    · have h0 := he 0 u (by omega) rfl
      have : (unionKey env u).bind (lastMember [(k, r)]) = none := by
        cases hu : unionKey env u with
        | none => rfl
        | some k' =>
          simp only [Option.bind_some, lastMember]
          rw [if_neg]
          intro e; subst e; exact h0 hu
      rw [this]
      exact ih

theorem symbolIndex_first {syms : List Str} {s : Str} {i : Nat} (h : syms[i]? = some s) (h' : ∀ i' < i, syms[i']? ≠ some s) :
    symbolIndex syms s = some i := by
  have : ∀ (syms : List Str) (i i0 : Nat), syms[i]? = some s → (∀ i' < i, syms[i']? ≠ some s) →
      symbolIndexFrom i0 syms s = some (i0 + i) := by
    intro syms
    induction syms with
    | nil => intro i i0 h; simp at h
    | cons x syms ih =>
      intro i i0 h h'
      cases i with
      | zero => simp at h; simp [symbolIndexFrom, h]
      | succ i =>
        rw [symbolIndexFrom, if_neg (fun e => h' 0 (by omega) (by simp [e])),
          ih i (i0 + 1) (by simpa using h) (fun i' hi' => by simpa using h' (i' + 1) (by omega))]
        congr 1; omega
  have := this syms i 0 h h'
  rwa [Nat.zero_add] at this

theorem symbolIndex_none {syms : List Str} {s : Str} (h : s ∉ syms) : symbolIndex syms s = none := by
  have : ∀ (syms : List Str) (i0 : Nat), s ∉ syms → symbolIndexFrom i0 syms s = none := by
    intro syms
    induction syms with
    | nil => intro _ _; rfl
    | cons x syms ih =>
      intro i0 h
      rw [List.mem_cons, not_or] at h
      rw [symbolIndexFrom, if_neg (fun e => h.1 e.symm), ih _ h.2]
  exact this syms 0 h

/-! Variables -/

theorem blank_zero {t : Ty} (h : ∀ q, t = .ref q → ∃ d, env.find q = some d) : Blank env t (jsonZero env t) := by
  cases t with
  | ref q =>
    obtain ⟨d, hq⟩ := h q rfl
    simp only [jsonZero, hq]
    cases hk : d.kind with
    | record fs => exact .recordZero hq hk
    | enum syms e => exact .enum hq hk
    | fixed n => exact .fixed hq hk (by simp)
  | array t => exact .arrayNil
  | map t => exact .mapNil
  | union ts => exact .unionNil
  | _ => constructor

theorem JsonOf.resolved {ext : Bool} {j : JTree} {t : Ty} {v : Val} (h : JsonOf env ext j t v) :
    ∀ q, t = .ref q → ∃ d, env.find q = some d := by
  rintro q rfl
  cases h <;> exact ⟨_, by assumption⟩

theorem DefaultMeans.resolved {lim : Bool} {j : Json} {t : Ty} {v : Val} (h : DefaultMeans env lim j t v) :
    ∀ q, t = .ref q → ∃ d, env.find q = some d := by
  rintro q rfl
  cases h <;> exact ⟨_, by assumption⟩

theorem blank_item {t : Ty} {c : Val} (hb : Blank env (.array t) c) (hz : Blank env t (jsonZero env t)) (i : Nat) :
    Blank env t ((slicePart c)[i]?.getD (jsonZero env t)) := by
  cases hb with
  | arrayNil => exact hz
  | @array _ vs h =>
    simp only [slicePart]
    cases hi : vs[i]? with
    | none => exact hz
    | some v => exact h v (List.mem_of_getElem? hi)

theorem blank_member {ts : List Ty} {t : Ty} {i : Nat} {c : Val} (hb : Blank env (.union ts) c) (hi : ts[i]? = some t)
    (hz : Blank env t (jsonZero env t)) : Blank env t (memberCur env t i c) := by
  cases hb with
  | unionNil => exact hz
  | unionNew => exact hz
  | @union _ tag v h =>
    simp only [memberCur]
    split
    · rename_i e; subst e; exact h t hi
    · exact hz

theorem blank_field {q : QName} {d : Def} {fs : List Field} {c : Val} (hq : env.find q = some d) (hk : d.kind = .record fs)
    (hb : Blank env (.ref q) c) {i : Nat} {f : Field} (hi : fs[i]? = some f) (hz : Blank env f.ty (jsonZero env f.ty)) :
    Blank env f.ty ((recordPart c)[i]?.getD (jsonZero env f.ty)) := by
  cases hb with
  | recordZero => exact hz
  | @record _ _ _ vs hq' hk' h =>
    rw [hq] at hq'; cases hq'
    rw [hk] at hk'; cases hk'
    simp only [recordPart]
    cases hv : vs[i]? with
    | none => exact hz
    | some v => exact h i f v hi hv
  | enum hq' hk' => rw [hq] at hq'; cases hq'; rw [hk] at hk'; cases hk'
  | fixed hq' hk' => rw [hq] at hq'; cases hq'; rw [hk] at hk'; cases hk'

theorem absent_ok (hE : EnumsCompile nm env) (hF : FieldsApart env) (hC : ConstructorsReturn nm env) {f : Field} {j : Json}
    {v : Val} (hd : f.dflt = some j) (h : DefaultMeans env true j f.ty v) :
    ∃ N, ∀ n ≥ N, ∀ cur, Blank env f.ty cur → absent nm env n f cur = .ok v := by
  obtain ⟨N1, h1⟩ := apply_means hE hF hC h
  obtain ⟨N2, c, h2⟩ := construct_ok hC h
  refine ⟨max N1 N2, fun n hn cur hb => ?_⟩
  have ha : ∀ v0, Ready nm env f.ty v (some v0) → (applyDefault nm env n j f.ty true (some v0)).bind present = .ok v :=
    fun v0 hr => ok_bind (h1 n (by omega) true (some v0) (.inl ⟨rfl, hr⟩))
  unfold absent
  rw [hd]
  dsimp only
  by_cases hc : f.ty.constructable env = true
  · have e : defaultTarget nm env n f.ty cur = .ok c := by
      unfold defaultTarget
      rw [if_pos hc, h2 n (by omega)]
    rw [e]
    show ofMade ((applyDefault nm env n j f.ty true (some c)).bind present) = .ok v
    rw [ha c (ready_construct (h2 n (by omega)))]
    rfl
  · have e : defaultTarget nm env n f.ty cur = .ok cur := by
      unfold defaultTarget
      rw [if_neg hc]
    rw [e]
    show ofMade ((applyDefault nm env n j f.ty true (some cur)).bind present) = .ok v
    rw [ha cur]
    · rfl
    · revert hc hb
      generalize f.ty = t
      intro hb hc
      cases hb with
      | null => rfl
      | enum hq hk => intro d' hd'; rw [hq] at hd'; cases hd'; rw [hk]; trivial
      | fixed hq hk hl => intro d' hd'; rw [hq] at hd'; cases hd'; rw [hk]; exact ⟨_, rfl, hl⟩
      | arrayNil => trivial
      | array => trivial
      | mapNil => exact absurd rfl hc
      | map => exact absurd rfl hc
      | unionNil => trivial
      | unionNew => trivial
      | union => trivial
      | recordZero hq hk => exact absurd (by simp [Ty.constructable, hq, hk]) hc
      | record hq hk => exact absurd (by simp [Ty.constructable, hq, hk]) hc
      | _ => trivial

/-- Reading a JSON encoding gives the value. -/
theorem unmarshal_ok {ext : Bool} (hE : ext = true → EnumsCompile nm env) (hF : ext = true → FieldsApart env)
    (hC : ext = true → ConstructorsReturn nm env) {j : JTree} {t : Ty} {v : Val} (h : JsonOf env ext j t v) :
    ∃ N, ∀ n ≥ N, ∀ cur, Blank env t cur → unmarshal nm env n j t cur = .ok v := by
  induction h with
  | null => exact ⟨0, fun _ _ _ _ => rfl⟩
  | bool => exact ⟨0, fun _ _ _ _ => rfl⟩
  | int hz h1 h2 => exact ⟨0, fun _ _ _ _ => jmap_ok (f := Val.int) (intInto_ok hz h1 h2)⟩
  | long hz h1 h2 => exact ⟨0, fun _ _ _ _ => jmap_ok (f := Val.long) (intInto_ok hz h1 h2)⟩
  | float h => exact ⟨0, fun _ _ _ _ => jmap_ok (f := Val.float) (floatInto_ok (F := single) (by decide) (by decide) h)⟩
  | double h =>
    have e := floatInto_ok (F := double) (by decide) (by decide) h
    refine ⟨0, fun _ _ _ _ => ?_⟩
    simp only [unmarshal, numInto]
    rw [e]
    rfl
  | bytes h => exact ⟨0, fun _ _ _ _ => rfl⟩
  | string => exact ⟨0, fun _ _ _ _ => rfl⟩
  | enum hq hk hi h =>
    refine ⟨0, fun _ _ _ _ => ?_⟩
    simp only [unmarshal, strInto, hq, hk, enumFrom, symbolIndex_first hi h]
  | enumDefault hx hq hk hs he hi =>
    refine ⟨0, fun _ _ _ _ => ?_⟩
    simp only [unmarshal, strInto, hq, hk, enumFrom, symbolIndex_none hs, if_neg he,
      symbolConst_ok (hE hx _ _ _ _ hq hk) hi]
    rfl
  | fixed hq hk h1 h2 =>
    refine ⟨0, fun _ _ cur hb => ?_⟩
    simp only [unmarshal, strInto, hq, hk]
    congr 2
    cases hb with
    | @fixed _ _ _ bs hq' hk' hl =>
      rw [hq] at hq'; cases hq'
      rw [hk] at hk'; cases hk'
      simp only [fixedBytes, fixedFromString, decodeByteString]
      rw [List.take_of_length_le (by simp; omega), List.drop_of_length_le (by simp; omega), List.append_nil]
    | enum hq' hk' => rw [hq] at hq'; cases hq'; rw [hk] at hk'; cases hk'
    | recordZero hq' hk' => rw [hq] at hq'; cases hq'; rw [hk] at hk'; cases hk'
    | record hq' hk' => rw [hq] at hq'; cases hq'; rw [hk] at hk'; cases hk'
  | @array js t vs hl hm ih =>
    obtain ⟨N, hN⟩ := bound_all js.length (fun i n => ∀ j v, js[i]? = some j → vs[i]? = some v →
      ∀ cur, Blank env t cur → unmarshal nm env n j t cur = .ok v) (fun i hi => by
        obtain ⟨N, h⟩ := ih i js[i] vs[i] (List.getElem?_eq_getElem hi) (List.getElem?_eq_getElem (by omega))
        refine ⟨N, fun n hn j v hj hv => ?_⟩
        rw [List.getElem?_eq_getElem hi] at hj; cases hj
        rw [List.getElem?_eq_getElem (by omega)] at hv; cases hv
        exact h n hn)
    refine ⟨N, fun n hn cur hb => ?_⟩
    simp only [unmarshal, arrInto]
    refine jmap_ok (itemsInto_ok (by rw [readers_eq]; simpa using hl) fun i r v hr hv => ?_)
    rw [readers_eq, List.getElem?_map, Option.map_eq_some_iff] at hr
    obtain ⟨j, hj, rfl⟩ := hr
    have hi := (List.getElem?_eq_some_iff.1 hj).1
    exact hN n hn i hi j v hj hv _ (blank_item hb (blank_zero (hm i j v hj hv).resolved) i)
  | @map kvs t vs hnd hl hm ih =>
    obtain ⟨N, hN⟩ := bound_all kvs.length (fun i n => ∀ kv v, kvs[i]? = some kv → vs[i]? = some v →
      ∀ cur, Blank env t cur → unmarshal nm env n kv.2 t cur = .ok v) (fun i hi => by
        obtain ⟨N, h⟩ := ih i kvs[i] vs[i] (List.getElem?_eq_getElem hi) (List.getElem?_eq_getElem (by omega))
        refine ⟨N, fun n hn j v hj hv => ?_⟩
        rw [List.getElem?_eq_getElem hi] at hj; cases hj
        rw [List.getElem?_eq_getElem (by omega)] at hv; cases hv
        exact h n hn)
    refine ⟨N, fun n hn cur hb => ?_⟩
    simp only [unmarshal, objInto]
    have hc : mapPart cur = [] := by cases hb <;> rfl
    rw [hc]
    refine jmap_ok (entriesInto_ok hl fun i kv v hk hv => ?_)
    have hi := (List.getElem?_eq_some_iff.1 hk).1
    exact hN n hn i hi kv v hk hv _ (blank_zero (hm i kv v hk hv).resolved)
  | @unionNull ts t ht hn =>
    subst hn
    refine ⟨0, fun _ _ _ _ => ?_⟩
    have : ts.any Ty.isNull = true := List.any_eq_true.2 ⟨_, ht, rfl⟩
    simp only [unmarshal, nullInto, this, if_true]
  | @union ts t k j v i hi hn hk he hs hj ih =>
    obtain ⟨N, hN⟩ := ih
    refine ⟨N, fun n hnN cur hb => ?_⟩
    simp only [unmarshal, keyed, objInto, List.map_cons, List.map_nil, severalKeys, List.any_nil]
    rw [if_neg (by simp)]
    rw [membersInto_ok (jsonName_iff.1 hk) 0 hi (fun i' t' hi' ht' => fun e => he i' t' hi' ht' (jsonName_iff.2 e))]
    · rw [Nat.zero_add]
      exact jmap_ok (hN n hnN _ (blank_member hb hi (blank_zero hj.resolved)))
    · rw [Nat.zero_add]
      intro e
      have := nullIndex_isNull e
      rw [hi] at this
      exact hn (Option.some.inj this)
  | @record kvs q d fs vs hq hk hnd _ hl hj hd ih =>
    obtain ⟨N, hN⟩ := bound_all fs.length (fun i n => ∀ f v, fs[i]? = some f → vs[i]? = some v →
      ∀ cur, Blank env f.ty cur → fieldInto nm env n (lastMember (keyed nm env n kvs)) f cur = .ok v) (fun i hi => by
        have ef := List.getElem?_eq_getElem hi
        have ev := List.getElem?_eq_getElem (show i < vs.length by omega)
        generalize fs[i] = f at *
        generalize vs[i] = v at *
        cases hin : f.inJson _ kvs with
        | some j =>
          obtain ⟨N, h⟩ := ih i f v j ef ev hin
          refine ⟨N, fun n hn f' v' hf' hv' cur hb => ?_⟩
          rw [ef] at hf'; cases hf'
          rw [ev] at hv'; cases hv'
          rw [fieldInto, firstOf_eq hnd, inJson_some hin]
          exact h n hn cur hb
        | none =>
          obtain ⟨hx, j, h1, h2⟩ := hd i f v ef ev hin
          obtain ⟨N, h⟩ := absent_ok (hE hx) (hF hx) (hC hx) h1 h2
          refine ⟨N, fun n hn f' v' hf' hv' cur hb => ?_⟩
          rw [ef] at hf'; cases hf'
          rw [ev] at hv'; cases hv'
          subst hx
          rw [fieldInto, firstOf_eq hnd, show firstMember kvs (f.name :: f.aliases) = none from hin]
          exact h n hn cur hb)
    refine ⟨N, fun n hn cur hb => ?_⟩
    simp only [unmarshal, objInto, hq, hk, recordInto]
    refine jmap_ok (fieldsInto_ok hl fun i f v hf hv => ?_)
    have hi := (List.getElem?_eq_some_iff.1 hf).1
    refine hN n hn i hi f v hf hv _ (blank_field hq hk hb hf (blank_zero ?_))
    cases hin : f.inJson _ kvs with
    | some j => exact (hj i f v j hf hv hin).resolved
    | none =>
      obtain ⟨_, j, _, h2⟩ := hd i f v hf hv hin
      exact h2.resolved

end Verif
