import Verif.Gen.JsonUnmarshal
/-
JSON that `UnmarshalJSON` refuses.
-/
namespace Verif

variable {nm : Namer} {env : Env} {n : Nat}

theorem itemsInto_refused {t : Ty} {r : Read} (h : ∀ c v, r t c ≠ .ok v) : ∀ {rs : List Read} {cs vs : List Val}, r ∈ rs →
    itemsInto env t rs cs ≠ .ok vs
  | [], _, _, hr, _ => by simp at hr
  | r' :: rs, cs, vs, hr, he => by
    rw [itemsInto] at he
    obtain ⟨v, h1, he⟩ := jbind_inv he
    obtain ⟨vs', h2, rfl⟩ := jmap_inv he
    rcases List.mem_cons.1 hr with rfl | hr
    · exact h _ _ h1
    · exact itemsInto_refused h hr h2

theorem entriesInto_refused {t : Ty} {k : Str} {r : Read} (h : ∀ c v, r t c ≠ .ok v) : ∀ {kvs : List (Str × Read)}
    {m m' : List (List Byte × Val)}, (k, r) ∈ kvs → entriesInto env t kvs m ≠ .ok m'
  | [], _, _, hr, _ => by simp at hr
  | (k', r') :: kvs, m, m', hr, he => by
    rw [entriesInto] at he
    obtain ⟨v, h1, he⟩ := jbind_inv he
    rcases List.mem_cons.1 hr with e | hr
    · cases e; exact h _ _ h1
    · exact entriesInto_refused h hr he

theorem fieldsInto_refused {get : Str → Option Read} {f : Field} (h : ∀ c v, fieldInto nm env n get f c ≠ .ok v) :
    ∀ {fs : List Field} {cs vs : List Val}, f ∈ fs → fieldsInto nm env n get fs cs ≠ .ok vs
  | [], _, _, hr, _ => by simp at hr
  | f' :: fs, cs, vs, hr, he => by
    rw [fieldsInto] at he
    obtain ⟨v, h1, he⟩ := jbind_inv he
    obtain ⟨vs', h2, rfl⟩ := jmap_inv he
    rcases List.mem_cons.1 hr with rfl | hr
    · exact h _ _ h1
    · exact fieldsInto_refused h hr h2

theorem lastMember_none {α : Type} {kvs : List (Str × α)} {k : Str} (h : ∀ kv ∈ kvs, kv.1 ≠ k) : lastMember kvs k = none := by
  induction kvs with
  | nil => rfl
  | cons kv kvs ih =>
    rw [lastMember, ih fun kv hkv => h kv (by simp [hkv])]
    dsimp only
    rw [if_neg (h kv (by simp))]

theorem firstOf_none {get : Str → Option Read} {ks : List Str} (h : ∀ k ∈ ks, get k = none) : firstOf get ks = none := by
  induction ks with
  | nil => rfl
  | cons k ks ih => rw [firstOf, h k (by simp)]; exact ih fun k hk => h k (by simp [hk])

theorem membersInto_none {nul : Option Nat} {get : Str → Option Read} {cur : Val} : ∀ {ts : List Ty} {i : Nat},
    (∀ (j : Nat) t, ts[j]? = some t → nul = some (i + j) ∨ (unionKey env t).bind get = none) →
    membersInto env nul get cur ts i = .error .refused
  | [], _, _ => rfl
  | t :: ts, i, h => by
    have ih := membersInto_none (nul := nul) (get := get) (cur := cur) (ts := ts) (i := i + 1)
      (fun j t' ht => by have := h (j + 1) t' (by simpa using ht); rwa [← Nat.add_assoc, Nat.add_right_comm] at this)
    rw [membersInto]
    split
    · exact ih
    · rename_i hn
      rcases h 0 t rfl with h0 | h0
      · exact absurd h0 hn
      · rw [h0]; exact ih

theorem keyed_keys (kvs : List (Str × JTree)) : (keyed nm env n kvs).map Prod.fst = kvs.map Prod.fst := by
  rw [keyed_eq, List.map_map]; rfl

theorem severalKeys_of {ks : List Str} {a b : Str} (ha : a ∈ ks) (hb : b ∈ ks) (h : a ≠ b) : severalKeys ks = true := by
  cases ks with
  | nil => simp at ha
  | cons k ks =>
    simp only [severalKeys, List.any_eq_true]
    by_cases hk : a = k
    · subst hk
      rcases List.mem_cons.1 hb with rfl | hb
      · exact absurd rfl h
      · exact ⟨b, hb, by simp [h.symm]⟩
    · rcases List.mem_cons.1 ha with rfl | ha
      · exact absurd rfl hk
      · exact ⟨a, ha, by simp [hk]⟩

theorem nullIndex_null {ts : List Ty} {j : Nat} (h : ts[j]? = some .null) (hu : ∀ j' < j, ts[j']? ≠ some .null) :
    nullIndex ts = some j := by
  have : ∀ (ts : List Ty) (i j : Nat), ts[j]? = some .null → (∀ j' < j, ts[j']? ≠ some .null) → nullIndexFrom i ts = some (i + j) := by
    intro ts
    induction ts with
    | nil => intro i j h; simp at h
    | cons t ts ih =>
      intro i j h hu
      cases j with
      | zero => simp at h; subst h; simp [nullIndexFrom, Ty.isNull]
      | succ j =>
        have h0 : t.isNull = false := by
          cases ht : t.isNull with
          | false => rfl
          | true => exact absurd (by cases t <;> first | rfl | cases ht) (hu 0 (by omega))
        rw [nullIndexFrom, h0]
        simp only [Bool.false_eq_true, if_false]
        rw [ih (i + 1) j (by simpa using h) (fun j' hj' => by simpa using hu (j' + 1) (by omega))]
        congr 1; omega
  have := this ts 0 j h hu
  rwa [Nat.zero_add] at this

theorem floatInto_reads {F : Fmt} (hk : 1 ≤ F.k) (hp : 1 ≤ F.p) {x : JNum} (hd : 0 < x.den) {b : BitVec F.width}
    (h : floatInto F x = .ok b) : F.Reads x b := by
  unfold floatInto at h
  dsimp only at h
  have htop := top_lt (F := F) hk
  have hw : 2 ^ F.width = 2 ^ (F.k + F.p) * 2 := by unfold Fmt.width; rw [← Nat.pow_succ]; congr 1; omega
  obtain ⟨t, hr⟩ : ∃ t, roundTo F x.num x.den = t := ⟨_, rfl⟩
  rw [hr] at h
  split at h
  · cases h
  rename_i ht
  have hb : b.toNat = t + if x.neg = true then 2 ^ (F.k + F.p) else 0 := by
    cases h
    rw [BitVec.toNat_ofNat, hw, Nat.mod_eq_of_lt]
    split <;> omega
  have hneg : F.neg b = x.neg := by
    unfold Fmt.neg
    rw [hb]
    cases x.neg <;> simp <;> omega
  have hlow : F.low b = t := by
    unfold Fmt.low
    rw [hb]
    split
    · rw [Nat.add_mod_right, Nat.mod_eq_of_lt (by omega)]
    · rw [Nat.add_zero, Nat.mod_eq_of_lt (by omega)]
  refine ⟨hneg, hd, ?_⟩
  unfold Fmt.abs
  rw [hlow]
  exact constFloat_near F hk hp hd (constFloat_nat hr (by omega))

/-- What is wrong is not read. -/
theorem wrong_refused {j : JTree} {t : Ty} (h : Wrong env j t) : ∀ c v, unmarshal nm env n j t c ≠ .ok v := by
  induction h with
  | @bool b t h => intro c v he; cases t <;> first | exact absurd rfl h | (simp only [unmarshal, boolInto] at he; cases he)
  | @num x t h1 h2 h3 h4 =>
    intro c v he
    cases t <;> first | exact absurd rfl h1 | exact absurd rfl h2 | exact absurd rfl h3 | exact absurd rfl h4 |
      (simp only [unmarshal, numInto] at he; cases he)
  | @str s t h1 h2 h3 =>
    intro c v he
    cases t with
    | bytes => exact absurd rfl h1
    | string => exact absurd rfl h2
    | ref q =>
      simp only [unmarshal, strInto] at he
      cases hq : env.find q with
      | none => rw [hq] at he; cases he
      | some d =>
        obtain ⟨fs, hk⟩ := h3 q d rfl hq
        simp only [hq, hk] at he
        cases he
    | _ => simp only [unmarshal, strInto] at he; cases he
  | @arr js t h =>
    intro c v he
    cases t with
    | array u => exact absurd rfl (h u)
    | _ => simp only [unmarshal, arrInto] at he; cases he
  | @obj kvs t h1 h2 h3 h4 =>
    intro c v he
    cases t with
    | null => exact absurd rfl h1
    | map u => exact absurd rfl (h2 u)
    | union ts => exact absurd rfl (h3 ts)
    | ref q =>
      simp only [unmarshal, objInto] at he
      cases hq : env.find q with
      | none => rw [hq] at he; cases he
      | some d =>
        cases hk : d.kind with
        | record fs => exact h4 q d fs rfl hq hk
        | _ => simp only [hq, hk] at he; cases he
    | _ => simp only [unmarshal, objInto] at he; cases he
  | @null ts h =>
    intro c v he
    simp only [unmarshal, nullInto] at he
    split at he
    · rename_i ha
      rw [List.any_eq_true] at ha
      obtain ⟨t, ht, hn⟩ := ha
      apply h
      cases t <;> first | exact ht | cases hn
    · cases he
  | int h =>
    intro c v he
    simp only [unmarshal, numInto] at he
    obtain ⟨b, hb, _⟩ := jmap_inv he
    unfold intInto at hb
    dsimp only at hb
    rw [if_neg h] at hb
    cases hb
  | long h =>
    intro c v he
    simp only [unmarshal, numInto] at he
    obtain ⟨b, hb, _⟩ := jmap_inv he
    unfold intInto at hb
    dsimp only at hb
    rw [if_neg h] at hb
    cases hb
  | intFrac => intro c v he; cases he
  | longFrac => intro c v he; cases he
  | float hd h =>
    intro c v he
    simp only [unmarshal, numInto] at he
    obtain ⟨b, hb, _⟩ := jmap_inv he
    exact h b (floatInto_reads (F := single) (by decide) (by decide) hd hb)
  | double hd h =>
    intro c v he
    simp only [unmarshal, numInto] at he
    obtain ⟨b, hb, _⟩ := jmap_inv he
    exact h b (floatInto_reads (F := Verif.double) (by decide) (by decide) hd hb)
  | symbol hq hk hs =>
    intro c v he
    simp only [unmarshal, strInto, hq, hk, enumFrom, symbolIndex_none hs, if_true] at he
    cases he
  | @missing kvs q d fs f hq hk hf hd hno =>
    intro c v he
    simp only [unmarshal, objInto, hq, hk, recordInto] at he
    obtain ⟨vs, he, _⟩ := jmap_inv he
    refine fieldsInto_refused (fun c v he => ?_) hf he
    rw [fieldInto, firstOf_none] at he
    · unfold absent at he
      rw [hd] at he
      cases he
    · intro k hk'
      apply lastMember_none
      intro kv hkv e
      have : kv.1 ∈ kvs.map Prod.fst := by rw [← keyed_keys (nm := nm) (env := env) (n := n)]; exact List.mem_map.2 ⟨kv, hkv, rfl⟩
      obtain ⟨kv', hkv', e'⟩ := List.mem_map.1 this
      have := hno kv' hkv'
      rw [e', e] at this
      rcases List.mem_cons.1 hk' with rfl | hk'
      · exact this.1 rfl
      · exact this.2 hk'
  | @keys kvs ts a b ha hb hab =>
    intro c v he
    simp only [unmarshal, objInto] at he
    rw [if_pos] at he
    · cases he
    · rw [keyed_keys]
      exact severalKeys_of (List.mem_map.2 ⟨a, ha, rfl⟩) (List.mem_map.2 ⟨b, hb, rfl⟩) hab
  | @unknown kvs ts h =>
    intro c v he
    simp only [unmarshal, objInto] at he
    split at he
    · cases he
    rw [membersInto_none] at he
    · cases he
    · intro j t ht
      rcases h j t ht with ⟨rfl, h⟩ | h
      · rw [Nat.zero_add]
        exact .inl (nullIndex_null ht h)
      · refine .inr ?_
        cases hu : unionKey env t with
        | none => rfl
        | some k =>
          apply lastMember_none
          intro kv hkv e
          have : kv.1 ∈ kvs.map Prod.fst := by
            rw [← keyed_keys (nm := nm) (env := env) (n := n)]; exact List.mem_map.2 ⟨kv, hkv, rfl⟩
          obtain ⟨kv', hkv', e'⟩ := List.mem_map.1 this
          exact h kv' hkv' (by rw [e', e]; exact jsonName_iff.2 hu)
  | @item js j t hj _ ih =>
    intro c v he
    simp only [unmarshal, arrInto] at he
    obtain ⟨vs, he, _⟩ := jmap_inv he
    refine itemsInto_refused (r := unmarshal nm env n j) ih ?_ he
    rw [readers_eq]
    exact List.mem_map.2 ⟨j, hj, rfl⟩
  | @entry kvs k j t hj _ ih =>
    intro c v he
    simp only [unmarshal, objInto] at he
    obtain ⟨vs, he, _⟩ := jmap_inv he
    refine entriesInto_refused (k := k) (r := unmarshal nm env n j) ih ?_ he
    rw [keyed_eq]
    exact List.mem_map.2 ⟨(k, j), hj, rfl⟩
  | @member ts t k j i hi hn hk he' _ ih =>
    intro c v he
    simp only [unmarshal, keyed, objInto, List.map_cons, List.map_nil, severalKeys, List.any_nil] at he
    rw [if_neg (by simp)] at he
    rw [membersInto_ok (jsonName_iff.1 hk) 0 hi (fun i' t' hi' ht' => fun e => he' i' t' hi' ht' (jsonName_iff.2 e))] at he
    · obtain ⟨v, he, _⟩ := jmap_inv he
      exact ih _ _ he
    · rw [Nat.zero_add]
      intro e
      have := nullIndex_isNull e
      rw [hi] at this
      exact hn (Option.some.inj this)
  | @field kvs q d fs f j hq hk hf hnd hin _ ih =>
    intro c v he
    simp only [unmarshal, objInto, hq, hk, recordInto] at he
    obtain ⟨vs, he, _⟩ := jmap_inv he
    refine fieldsInto_refused (fun c v he => ?_) hf he
    rw [fieldInto, firstOf_eq hnd, inJson_some hin] at he
    exact ih _ _ he

end Verif
