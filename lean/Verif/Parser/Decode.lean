import Verif.Parser.Register
/-
`decodeTypeDefinition` accepts a document exactly if the rules describe it and its definitions can be
registered.
-/
namespace Verif
open Spec
set_option linter.unusedSimpArgs false
set_option linter.unusedVariables false

theorem registerAliases_short (d : PDef) : ∀ (as : List QName) (n : NS),
    (registerAliases d as n).2.shortUnions = n.shortUnions
  | [], n => rfl
  | a :: as, n => by
    simp only [registerAliases]
    split
    · rfl
    · exact registerAliases_short d as _

theorem register_short (n : NS) (d : PDef) : (register n d).2.shortUnions = n.shortUnions := by
  unfold register
  split
  · split <;> rfl
  · exact registerAliases_short d _ _

theorem registerAll_short (ds : List PDef) : ∀ n : NS, (registerAll n ds).2.shortUnions = n.shortUnions := by
  induction ds with
  | nil => intro n; rfl
  | cons d ds ih =>
    intro n
    have h := register_short n d
    simp only [registerAll]
    rcases hr : register n d with ⟨r, n'⟩
    rw [hr] at h
    cases r with
    | error e => exact h
    | ok u => exact (ih n').trans h

theorem registerAll_short' {ds : List PDef} {n n' : NS} {r} (h : registerAll n ds = (r, n')) :
    n'.shortUnions = n.shortUnions := by
  have := registerAll_short ds n
  rwa [h] at this

theorem lookup_depth {o : JObj} {k : Str} {j : Json} (h : o.lookup k = some j) :
    j.depth ≤ Json.depthEntries o := by
  induction o with
  | nil => simp at h
  | cons e o ih =>
    obtain ⟨k', v⟩ := e
    simp only [List.lookup] at h
    simp only [Json.depthEntries]
    split at h
    · cases h; omega
    · have := ih h; omega

theorem depth_pos (j : Json) : 0 < j.depth := by cases j <;> simp [Json.depth]

/-- The decoder does what the rules say on values nested at most `k` deep. -/
def DecodesTo (k : Nat) (dec : Decoder) : Prop :=
  ∀ name ns j, j.depth ≤ k → ∀ n t n', dec name ns j n = (.ok t, n') ↔
    ∃ ds, Describes n.shortUnions name ns j t ds ∧ registerAll n ds = (.ok (), n')

theorem registerAll_then {n n1 n' : NS} {ds ds' : List PDef} (h1 : registerAll n ds = (.ok (), n1))
    (h2 : registerAll n1 ds' = (.ok (), n')) : registerAll n (ds ++ ds') = (.ok (), n') := by
  rw [registerAll_append, h1]; exact h2

theorem registerAll_split {n n' : NS} {ds ds' : List PDef}
    (h : registerAll n (ds ++ ds') = (.ok (), n')) :
    ∃ n1, registerAll n ds = (.ok (), n1) ∧ registerAll n1 ds' = (.ok (), n') := by
  rw [registerAll_append] at h
  rcases hr : registerAll n ds with ⟨r, n1⟩
  rw [hr] at h
  cases r with
  | error e => cases h
  | ok u => exact ⟨n1, rfl, h⟩

theorem members_iff {k : Nat} {dec : Decoder} (hd : DecodesTo k dec) {name ns : Str} :
    ∀ {js : List Json}, Json.depths js ≤ k → ∀ {n : NS} {ts n'},
      decodeMembers dec name ns js n = (.ok ts, n') ↔
        ∃ ds, DescribesAll n.shortUnions name ns js ts ds ∧ registerAll n ds = (.ok (), n')
  | [], _, n, ts, n' => by
    constructor
    · intro h; cases h; exact ⟨[], .nil, rfl⟩
    · rintro ⟨ds, h1, h2⟩
      cases h1; cases h2; rfl
  | j :: js, hk, n, ts, n' => by
    simp only [Json.depths] at hk
    constructor
    · intro h
      simp only [decodeMembers] at h
      rcases hr : dec name ns j n with ⟨r, n1⟩
      rw [hr] at h
      cases r with
      | error e => cases h
      | ok t =>
        obtain ⟨ds, h1, h2⟩ := (hd name ns j (by omega) n t n1).1 hr
        dsimp only at h
        rcases hr2 : decodeMembers dec name ns js n1 with ⟨r2, n2⟩
        rw [hr2] at h
        cases r2 with
        | error e => cases h
        | ok ts' =>
          cases h
          obtain ⟨ds', h3, h4⟩ := (members_iff hd (by omega)).1 hr2
          rw [registerAll_short' h2] at h3
          exact ⟨ds ++ ds', .cons h1 h3, registerAll_then h2 h4⟩
    · rintro ⟨ds, h1, h2⟩
      cases h1 with
      | cons h1 h3 =>
        obtain ⟨n1, h4, h5⟩ := registerAll_split h2
        simp only [decodeMembers]
        rw [(hd name ns j (by omega) n _ n1).2 ⟨_, h1, h4⟩]
        dsimp only
        rw [(members_iff hd (by omega)).2 ⟨_, by rw [registerAll_short' h4]; exact h3, h5⟩]

theorem fieldRest_iff {name : Str} {ty : PTy} {o : JObj} {f : PField} :
    fieldRest name ty o = .ok f ↔ ∃ aliases doc tags, OptStrings o "aliases".toList aliases ∧
      OptAttr o "doc".toList doc ∧ OptAttr o "golang.tags".toList tags ∧
      f = ⟨name, ty, o.lookup "default".toList, aliases, doc, tags, o⟩ := by
  unfold fieldRest
  simp only [bind, Except.bind]
  constructor
  · intro h
    split at h
    · cases h
    · rename_i doc h1
      split at h
      · cases h
      · rename_i tags h2
        split at h
        · cases h
        · rename_i aliases h3
          cases h
          exact ⟨aliases, doc, tags, fieldAliases_iff.1 h3, optStr_iff.1 h1, optStr_iff.1 h2, rfl⟩
  · rintro ⟨aliases, doc, tags, h1, h2, h3, rfl⟩
    rw [optStr_iff.2 h2, optStr_iff.2 h3, fieldAliases_iff.2 h1]

theorem fields_iff {k : Nat} {dec : Decoder} (hd : DecodesTo k dec) {ns : Str} :
    ∀ {js : List Json}, Json.depths js ≤ k → ∀ {n : NS} {fs n'},
      decodeFields dec ns js n = (.ok fs, n') ↔
        ∃ ds, DescribesFields n.shortUnions ns js fs ds ∧ registerAll n ds = (.ok (), n')
  | [], _, n, fs, n' => by
    constructor
    · intro h; cases h; exact ⟨[], .nil, rfl⟩
    · rintro ⟨ds, h1, h2⟩
      cases h1; cases h2; rfl
  | j :: js, hk, n, fs, n' => by
    simp only [Json.depths] at hk
    constructor
    · intro h
      simp only [decodeFields] at h
      rcases hr : decodeField dec ns j n with ⟨r, n1⟩
      rw [hr] at h
      cases r with
      | error e => cases h
      | ok f =>
        dsimp only at h
        rcases hr2 : decodeFields dec ns js n1 with ⟨r2, n2⟩
        rw [hr2] at h
        cases r2 with
        | error e => cases h
        | ok fs' =>
          cases h
          obtain ⟨ds', h3, h4⟩ := (fields_iff hd (by omega)).1 hr2
          cases j with
          | obj o =>
            simp only [decodeField] at hr
            split at hr
            · cases hr
            · rename_i nm h5
              split at hr
              · cases hr
              · rename_i t h6
                have hdt := lookup_depth h6
                simp only [Json.depth] at hk
                rcases hr3 : dec nm ns t n with ⟨r3, n3⟩
                rw [hr3] at hr
                cases r3 with
                | error e => cases hr
                | ok ty =>
                  obtain ⟨ds, h7, h8⟩ := (hd nm ns t (by omega) n ty n3).1 hr3
                  simp only [Prod.mk.injEq] at hr
                  obtain ⟨hr4, rfl⟩ := hr
                  obtain ⟨al, doc, tags, ha, hb, hc, rfl⟩ := fieldRest_iff.1 hr4
                  rw [registerAll_short' h8] at h3
                  exact ⟨ds ++ ds', .cons (getStr_iff.1 h5) h6 h7 ha hb hc h3, registerAll_then h8 h4⟩
          | _ => simp [decodeField] at hr
    · rintro ⟨ds, h1, h2⟩
      cases h1 with
      | cons ha hb hc hd' he hf hg =>
        obtain ⟨n1, h4, h5⟩ := registerAll_split h2
        have hdt := lookup_depth hb
        simp only [Json.depth] at hk
        simp only [decodeFields, decodeField]
        rw [getStr_iff.2 ha]
        dsimp only
        rw [hb]
        dsimp only
        rw [(hd _ ns _ (by omega) n _ n1).2 ⟨_, hc, h4⟩]
        dsimp only
        rw [fieldRest_iff.2 ⟨_, _, _, hd', he, hf, rfl⟩]
        dsimp only
        rw [(fields_iff hd (by omega)).2 ⟨_, by rw [registerAll_short' h4]; exact hg, h5⟩]

theorem enum_iff {ns : Str} {o : JObj} {d : PDef} : decodeEnum ns o = .ok d ↔
    ∃ q qs ss doc dflt, NameOf ns o q ∧ o.lookup "symbols".toList = some (.arr (ss.map .str)) ∧
      AliasesOf ns o qs ∧ OptAttr o "default".toList dflt ∧ OptAttr o "doc".toList doc ∧
      d = ⟨q, qs, .enum ss doc dflt, o⟩ := by
  unfold decodeEnum
  simp only [bind, Except.bind]
  constructor
  · intro h
    split at h
    · cases h
    rename_i q h1
    split at h
    · cases h
    rename_i l h2
    split at h
    · cases h
    rename_i dflt h3
    split at h
    · cases h
    rename_i ss h4
    split at h
    · cases h
    rename_i qs h5
    split at h
    · cases h
    rename_i doc h6
    cases h
    refine ⟨q, qs, ss, doc, dflt, avroName_iff.1 h1, ?_, parseAliases_iff.1 h5, optStr_iff.1 h3,
      optStr_iff.1 h6, rfl⟩
    rw [getArr_iff.1 h2, strings_iff.1 h4]
  · rintro ⟨q, qs, ss, doc, dflt, h1, h2, h3, h4, h5, rfl⟩
    rw [avroName_iff.2 h1, getArr_iff.2 h2, optStr_iff.2 h4, optStr_iff.2 h5, parseAliases_iff.2 h3]
    dsimp only
    rw [strings_iff.2 rfl]

theorem fixed_iff {ns : Str} {o : JObj} {d : PDef} : decodeFixed ns o = .ok d ↔
    ∃ q qs size, NameOf ns o q ∧ FixedSize o size ∧ AliasesOf q.ns o qs ∧
      d = ⟨q, qs, .fixed size, o⟩ := by
  unfold decodeFixed
  simp only [bind, Except.bind]
  constructor
  · intro h
    split at h
    · cases h
    rename_i q h1
    split at h
    · cases h
    rename_i size h2
    split at h
    · cases h
    rename_i qs h3
    cases h
    exact ⟨q, qs, size, avroName_iff.1 h1, getInt_iff.1 h2, parseAliases_iff.1 h3, rfl⟩
  · rintro ⟨q, qs, size, h1, h2, h3, rfl⟩
    rw [avroName_iff.2 h1, getInt_iff.2 h2]
    dsimp only
    rw [parseAliases_iff.2 h3]

theorem recordHead_iff {ns : Str} {o : JObj} {x} : recordHead ns o = .ok x ↔
    ∃ q doc js, NameOf ns o q ∧ OptAttr o "doc".toList doc ∧
      o.lookup "fields".toList = some (.arr js) ∧ x = (q, doc, js) := by
  unfold recordHead
  simp only [bind, Except.bind]
  constructor
  · intro h
    split at h
    · cases h
    rename_i q h1
    split at h
    · cases h
    rename_i doc h2
    split at h
    · cases h
    rename_i js h3
    cases h
    exact ⟨q, doc, js, avroName_iff.1 h1, optStr_iff.1 h2, getArr_iff.1 h3, rfl⟩
  · rintro ⟨q, doc, js, h1, h2, h3, rfl⟩
    rw [avroName_iff.2 h1, optStr_iff.2 h2, getArr_iff.2 h3]

theorem record_iff {k : Nat} {dec : Decoder} (hd : DecodesTo k dec) {ns : Str} {o : JObj}
    (hk : Json.depthEntries o ≤ k) {n n' : NS} {d : PDef} :
    decodeRecord dec ns o n = (.ok d, n') ↔
      ∃ q qs js fs doc ds, NameOf ns o q ∧ o.lookup "fields".toList = some (.arr js) ∧
        AliasesOf q.ns o qs ∧ OptAttr o "doc".toList doc ∧
        DescribesFields n.shortUnions q.ns js fs ds ∧ registerAll n ds = (.ok (), n') ∧
        d = ⟨q, qs, .record fs doc, o⟩ := by
  unfold decodeRecord
  constructor
  · intro h
    split at h
    · cases h
    rename_i q doc js h1
    obtain ⟨q', doc', js', h2, h3, h4, h5⟩ := recordHead_iff.1 h1
    cases h5
    have hdj := lookup_depth h4
    simp only [Json.depth] at hdj
    split at h
    · cases h
    rename_i fs n1 h6
    obtain ⟨ds, h7, h8⟩ := (fields_iff hd (by omega)).1 h6
    split at h
    · cases h
    rename_i qs h9
    cases h
    exact ⟨q, qs, js, fs, doc, ds, h2, h4, parseAliases_iff.1 h9, h3, h7, h8, rfl⟩
  · rintro ⟨q, qs, js, fs, doc, ds, h1, h2, h3, h4, h5, h6, rfl⟩
    have hdj := lookup_depth h2
    simp only [Json.depth] at hdj
    rw [recordHead_iff.2 ⟨q, doc, js, h1, h4, h2, rfl⟩]
    dsimp only
    rw [(fields_iff hd (by omega)).2 ⟨ds, h5, h6⟩]
    dsimp only
    rw [parseAliases_iff.2 h3]

theorem registered_iff {r : Except PErr PDef × NS} {t : PTy} {n' : NS} : registered r = (.ok t, n') ↔
    ∃ d n1, r = (.ok d, n1) ∧ registerAll n1 [d] = (.ok (), n') ∧ t = .ref d.name := by
  rcases r with ⟨r, n1⟩
  cases r with
  | error e => simp [registered]
  | ok d =>
    simp only [registered, registerAll]
    rcases hr : register n1 d with ⟨r2, n2⟩
    cases r2 with
    | error e =>
      constructor
      · intro h; cases h
      · rintro ⟨d', n'', h, h2, -⟩
        cases h
        rw [hr] at h2; cases h2
    | ok u =>
      constructor
      · intro h
        cases h
        exact ⟨d, n1, rfl, by rw [hr], rfl⟩
      · rintro ⟨d', n'', h, h2, rfl⟩
        cases h
        rw [hr] at h2; cases h2
        rfl

theorem itemOf_iff {k : Nat} {dec : Decoder} (hd : DecodesTo k dec) {name ns key : Str} {o : JObj}
    {mk : PTy → Json → PTy} (hk : Json.depthEntries o ≤ k) {n n' : NS} {t : PTy} :
    itemOf dec name ns o key mk n = (.ok t, n') ↔ ∃ j t' ds, o.lookup key = some j ∧
      Describes n.shortUnions name ns j t' ds ∧ registerAll n ds = (.ok (), n') ∧ t = mk t' (.obj o) := by
  unfold itemOf
  constructor
  · intro h
    split at h
    · cases h
    rename_i j h1
    have := lookup_depth h1
    split at h
    · cases h
    rename_i t' n1 h2
    cases h
    obtain ⟨ds, h3, h4⟩ := (hd name ns j (by omega) n t' _).1 h2
    exact ⟨j, t', ds, h1, h3, h4, rfl⟩
  · rintro ⟨j, t', ds, h1, h2, h3, rfl⟩
    have := lookup_depth h1
    rw [h1]
    dsimp only
    rw [(hd name ns j (by omega) n t' n').2 ⟨ds, h2, h3⟩]

theorem typeByName_iff {ns s : Str} {j : Json} {t : PTy} : typeByName ns s j = t ↔
    (∃ p, (s, p) ∈ primNames ∧ t = .prim p j) ∨
      ((∀ p, (s, p) ∉ primNames) ∧ ∃ q, FullName ns s q ∧ t = .ref q) := by
  unfold typeByName
  cases h : primNamed s with
  | some p =>
    have hp := primNamed_iff.1 h
    constructor
    · rintro rfl; exact .inl ⟨p, hp, rfl⟩
    · rintro (⟨p', hp', rfl⟩ | ⟨hn, -⟩)
      · rw [primNamed_iff.2 hp'] at h; cases h; rfl
      · exact absurd hp (hn p)
  | none =>
    have hp := primNamed_none.1 h
    constructor
    · rintro rfl; exact .inr ⟨hp, _, parseAvroName_iff.1 rfl, rfl⟩
    · rintro (⟨p', hp', rfl⟩ | ⟨hn, q, hq, rfl⟩)
      · exact absurd hp' (hp p')
      · rw [parseAvroName_iff.2 hq]

theorem keyword_not_prim {s : Str} (h : s ∈ keywords) (p : Prim) : (s, p) ∉ primNames := by
  have : ∀ s ∈ keywords, primNamed s = none := by decide
  exact primNamed_none.1 (this s h) p

theorem complex_iff {k : Nat} {dec : Decoder} (hd : DecodesTo k dec) {name ns : Str} {o : JObj}
    (hk : Json.depthEntries o ≤ k) {n n' : NS} {t : PTy} :
    decodeComplex dec name ns o n = (.ok t, n') ↔
      ∃ ds, Describes n.shortUnions name ns (.obj o) t ds ∧ registerAll n ds = (.ok (), n') := by
  unfold decodeComplex
  constructor
  · intro h
    split at h
    · cases h
    rename_i ty h0
    have h0' := getStr_iff.1 h0
    by_cases h1 : ty = "array".toList
    · rw [if_pos h1] at h; subst h1
      obtain ⟨j, t', ds, h2, h3, h4, rfl⟩ := (itemOf_iff hd hk).1 h
      exact ⟨ds, .array h0' h2 h3, h4⟩
    rw [if_neg h1] at h
    by_cases h2 : ty = "map".toList
    · rw [if_pos h2] at h; subst h2
      obtain ⟨j, t', ds, h2, h3, h4, rfl⟩ := (itemOf_iff hd hk).1 h
      exact ⟨ds, .map h0' h2 h3, h4⟩
    rw [if_neg h2] at h
    by_cases h3 : ty = "enum".toList
    · rw [if_pos h3] at h; subst h3
      obtain ⟨d, n1, h4, h5, rfl⟩ := registered_iff.1 h
      simp only [Prod.mk.injEq] at h4
      obtain ⟨h4, rfl⟩ := h4
      obtain ⟨q, qs, ss, doc, dflt, ha, hb, hc, hd', he, rfl⟩ := enum_iff.1 h4
      exact ⟨_, .enum h0' ha hb hc hd' he, h5⟩
    rw [if_neg h3] at h
    by_cases h4 : ty = "fixed".toList
    · rw [if_pos h4] at h; subst h4
      obtain ⟨d, n1, h4, h5, rfl⟩ := registered_iff.1 h
      simp only [Prod.mk.injEq] at h4
      obtain ⟨h4, rfl⟩ := h4
      obtain ⟨q, qs, size, ha, hb, hc, rfl⟩ := fixed_iff.1 h4
      exact ⟨_, .fixed h0' ha hb hc, h5⟩
    rw [if_neg h4] at h
    by_cases h5 : ty = "record".toList
    · rw [if_pos h5] at h; subst h5
      obtain ⟨d, n1, h6, h7, rfl⟩ := registered_iff.1 h
      obtain ⟨q, qs, js, fs, doc, ds, ha, hb, hc, hd', he, hf, rfl⟩ := (record_iff hd hk).1 h6
      exact ⟨_, .record h0' ha hb hc hd' he, registerAll_then hf h7⟩
    rw [if_neg h5] at h
    cases h
    have hkw : ty ∉ keywords := by
      simp only [keywords, List.mem_cons, List.not_mem_nil, or_false, not_or]
      exact ⟨h1, h2, h3, h4, h5⟩
    refine ⟨[], ?_, rfl⟩
    rcases typeByName_iff.1 rfl with ⟨p, hp, ht⟩ | ⟨hp, q, hq, ht⟩ <;> rw [ht]
    · exact .primObject h0' hp
    · exact .namedObject h0' hkw hp hq
  · rintro ⟨ds, h1, h2⟩
    cases h1 with
    | array h3 h4 h5 =>
      rw [getStr_iff.2 h3]
      exact (itemOf_iff hd hk).2 ⟨_, _, _, h4, h5, h2, rfl⟩
    | map h3 h4 h5 =>
      rw [getStr_iff.2 h3]
      exact (itemOf_iff hd hk).2 ⟨_, _, _, h4, h5, h2, rfl⟩
    | enum h3 ha hb hc hd' he =>
      rw [getStr_iff.2 h3]
      exact registered_iff.2 ⟨_, n, by rw [enum_iff.2 ⟨_, _, _, _, _, ha, hb, hc, hd', he, rfl⟩], h2, rfl⟩
    | fixed h3 ha hb hc =>
      rw [getStr_iff.2 h3]
      exact registered_iff.2 ⟨_, n, by rw [fixed_iff.2 ⟨_, _, _, ha, hb, hc, rfl⟩], h2, rfl⟩
    | record h3 ha hb hc hd' he =>
      rw [getStr_iff.2 h3]
      obtain ⟨n1, h4, h5⟩ := registerAll_split h2
      exact registered_iff.2 ⟨_, n1, (record_iff hd hk).2 ⟨_, _, _, _, _, _, ha, hb, hc, hd', he, h4, rfl⟩, h5, rfl⟩
    | @primObject _ _ _ s p h3 h4 =>
      rw [getStr_iff.2 h3]
      cases h2
      have hs : s ∉ keywords := fun h => keyword_not_prim h _ h4
      simp only [keywords, List.mem_cons, List.not_mem_nil, or_false, not_or] at hs
      dsimp only
      rw [if_neg hs.1, if_neg hs.2.1, if_neg hs.2.2.1, if_neg hs.2.2.2.1, if_neg hs.2.2.2.2,
        typeByName_iff.2 (.inl ⟨p, h4, rfl⟩)]
    | @namedObject _ _ _ s q h3 hs h4 h5 =>
      rw [getStr_iff.2 h3]
      cases h2
      simp only [keywords, List.mem_cons, List.not_mem_nil, or_false, not_or] at hs
      dsimp only
      rw [if_neg hs.1, if_neg hs.2.1, if_neg hs.2.2.1, if_neg hs.2.2.2.1, if_neg hs.2.2.2.2,
        typeByName_iff.2 (.inr ⟨h4, q, h5, rfl⟩)]

theorem decodeType_iff : ∀ k, DecodesTo k (decodeType k)
  | 0 => fun name ns j hj => by have := depth_pos j; omega
  | k + 1 => by
    have ih := decodeType_iff k
    intro name ns j hj n t n'
    cases j with
    | str s =>
      simp only [decodeType, Prod.mk.injEq, Except.ok.injEq]
      constructor
      · rintro ⟨h, rfl⟩
        refine ⟨[], ?_, rfl⟩
        rcases typeByName_iff.1 h with ⟨p, hp, rfl⟩ | ⟨hp, q, hq, rfl⟩
        · exact .prim hp
        · exact .named hp hq
      · rintro ⟨ds, h1, h2⟩
        cases h1 with
        | prim hp => cases h2; exact ⟨typeByName_iff.2 (.inl ⟨_, hp, rfl⟩), rfl⟩
        | named hp hq => cases h2; exact ⟨typeByName_iff.2 (.inr ⟨hp, _, hq, rfl⟩), rfl⟩
    | arr js =>
      simp only [Json.depth] at hj
      simp only [decodeType, decodeUnion]
      constructor
      · intro h
        split at h
        · cases h
        rename_i ts n1 h1
        cases h
        obtain ⟨ds, h2, h3⟩ := (members_iff ih (by omega)).1 h1
        exact ⟨ds, .union h2, h3⟩
      · rintro ⟨ds, h1, h2⟩
        cases h1 with
        | union h1 =>
          rw [(members_iff ih (by omega)).2 ⟨_, h1, h2⟩]
          rfl
    | obj o =>
      simp only [Json.depth] at hj
      simp only [decodeType]
      exact complex_iff ih (by omega)
    | null => simp only [decodeType, Prod.mk.injEq, reduceCtorEq, false_and, false_iff]; rintro ⟨ds, h, -⟩; cases h
    | bool b => simp only [decodeType, Prod.mk.injEq, reduceCtorEq, false_and, false_iff]; rintro ⟨ds, h, -⟩; cases h
    | num b => simp only [decodeType, Prod.mk.injEq, reduceCtorEq, false_and, false_iff]; rintro ⟨ds, h, -⟩; cases h
    | real b => simp only [decodeType, Prod.mk.injEq, reduceCtorEq, false_and, false_iff]; rintro ⟨ds, h, -⟩; cases h

/-! The recursion is not cut short. -/

/-- The decoder does not run out of depth on values nested at most `k` deep. -/
def NotDeep (k : Nat) (dec : Decoder) : Prop :=
  ∀ name ns j, j.depth ≤ k → ∀ n, (dec name ns j n).1 ≠ .error .deep

theorem getStr_notDeep {o : JObj} {k : Str} {e} (h : getStr o k = .error e) : e ≠ .deep := by
  unfold getStr at h; split at h <;> cases h <;> simp
theorem getArr_notDeep {o : JObj} {k : Str} {e} (h : getArr o k = .error e) : e ≠ .deep := by
  unfold getArr at h; split at h <;> cases h <;> simp
theorem getInt_notDeep {o : JObj} {k : Str} {e} (h : getInt o k = .error e) : e ≠ .deep := by
  unfold getInt at h; split at h <;> cases h <;> simp
theorem optStr_notDeep {o : JObj} {k : Str} {e} (h : optStr o k = .error e) : e ≠ .deep := by
  unfold optStr at h; split at h <;> cases h <;> simp
theorem strings_notDeep {k : Str} : ∀ {l : List Json} {e}, strings k l = .error e → e ≠ .deep
  | [], e, h => by cases h
  | j :: js, e, h => by
    cases j with
    | str s =>
      simp only [strings, bind, Except.bind] at h
      split at h
      · rename_i h1; cases h; exact strings_notDeep h1
      · cases h
    | _ => simp only [strings] at h; cases h; simp
theorem avroName_notDeep {o : JObj} {k : Str} {e} (h : avroName o k = .error e) : e ≠ .deep := by
  unfold avroName at h
  simp only [bind, Except.bind] at h
  split at h
  · rename_i h1; cases h; exact getStr_notDeep h1
  · split at h
    · rename_i h1; cases h; exact optStr_notDeep h1
    · cases h
theorem fieldAliases_notDeep {o : JObj} {e} (h : fieldAliases o = .error e) : e ≠ .deep := by
  unfold fieldAliases at h
  split at h
  · cases h
  · exact strings_notDeep h
  · cases h; simp
theorem parseAliases_notDeep {o : JObj} {k : Str} {e} (h : parseAliases o k = .error e) : e ≠ .deep := by
  rw [parseAliases_eq] at h
  cases h1 : fieldAliases o with
  | error e' => rw [h1] at h; cases h; exact fieldAliases_notDeep h1
  | ok _ => rw [h1] at h; cases h
theorem registerAliases_notDeep {d : PDef} : ∀ {as : List QName} {n : NS}, (registerAliases d as n).1 ≠ .error .deep
  | [], n => by simp [registerAliases]
  | a :: as, n => by
    simp only [registerAliases]
    split
    · simp
    · exact registerAliases_notDeep
theorem register_notDeep {d : PDef} {n : NS} : (register n d).1 ≠ .error .deep := by
  unfold register
  split
  · split <;> simp
  · exact registerAliases_notDeep
theorem registered_notDeep {r : Except PErr PDef × NS} (h : r.1 ≠ .error .deep) : (registered r).1 ≠ .error .deep := by
  rcases r with ⟨r, n⟩
  cases r with
  | error e => exact fun h' => h (by cases h'; rfl)
  | ok d =>
    have := register_notDeep (d := d) (n := n)
    simp only [registered]
    rcases hr : register n d with ⟨r2, n2⟩
    rw [hr] at this
    cases r2 with
    | error e => exact fun h' => this (by cases h'; rfl)
    | ok u => simp
theorem decodeEnum_notDeep {ns : Str} {o : JObj} : decodeEnum ns o ≠ .error .deep := by
  intro h
  unfold decodeEnum at h
  simp only [bind, Except.bind] at h
  split at h
  · rename_i h1; cases h; exact avroName_notDeep h1 rfl
  split at h
  · rename_i h1; cases h; exact getArr_notDeep h1 rfl
  split at h
  · rename_i h1; cases h; exact optStr_notDeep h1 rfl
  split at h
  · rename_i h1; cases h; exact strings_notDeep h1 rfl
  split at h
  · rename_i h1; cases h; exact parseAliases_notDeep h1 rfl
  split at h
  · rename_i h1; cases h; exact optStr_notDeep h1 rfl
  cases h
theorem decodeFixed_notDeep {ns : Str} {o : JObj} : decodeFixed ns o ≠ .error .deep := by
  intro h
  unfold decodeFixed at h
  simp only [bind, Except.bind] at h
  split at h
  · rename_i h1; cases h; exact avroName_notDeep h1 rfl
  split at h
  · rename_i h1; cases h; exact getInt_notDeep h1 rfl
  split at h
  · rename_i h1; cases h; exact parseAliases_notDeep h1 rfl
  cases h
theorem recordHead_notDeep {ns : Str} {o : JObj} {e} (h : recordHead ns o = .error e) : e ≠ .deep := by
  unfold recordHead at h
  simp only [bind, Except.bind] at h
  split at h
  · rename_i h1; cases h; exact avroName_notDeep h1
  split at h
  · rename_i h1; cases h; exact optStr_notDeep h1
  split at h
  · rename_i h1; cases h; exact getArr_notDeep h1
  cases h
theorem fieldRest_notDeep {name : Str} {ty : PTy} {o : JObj} {e} (h : fieldRest name ty o = .error e) : e ≠ .deep := by
  unfold fieldRest at h
  simp only [bind, Except.bind] at h
  split at h
  · rename_i h1; cases h; exact optStr_notDeep h1
  split at h
  · rename_i h1; cases h; exact optStr_notDeep h1
  split at h
  · rename_i h1; cases h; exact fieldAliases_notDeep h1
  cases h

theorem members_notDeep {k : Nat} {dec : Decoder} (hd : NotDeep k dec) {name ns : Str} :
    ∀ {js : List Json}, Json.depths js ≤ k → ∀ {n : NS}, (decodeMembers dec name ns js n).1 ≠ .error .deep
  | [], _, n => by simp [decodeMembers]
  | j :: js, hk, n => by
    simp only [Json.depths] at hk
    have h1 := hd name ns j (by omega) n
    simp only [decodeMembers]
    split
    · rename_i h2; rw [h2] at h1; exact fun h => h1 (by cases h; rfl)
    · rename_i t n1 h2
      have h3 := members_notDeep hd (name := name) (ns := ns) (js := js) (by omega) (n := n1)
      split
      · rename_i h4; rw [h4] at h3; exact fun h => h3 (by cases h; rfl)
      · simp

theorem fields_notDeep {k : Nat} {dec : Decoder} (hd : NotDeep k dec) {ns : Str} :
    ∀ {js : List Json}, Json.depths js ≤ k → ∀ {n : NS}, (decodeFields dec ns js n).1 ≠ .error .deep
  | [], _, n => by simp [decodeFields]
  | j :: js, hk, n => by
    simp only [Json.depths] at hk
    have h1 : (decodeField dec ns j n).1 ≠ .error .deep := by
      cases j with
      | obj o =>
        simp only [decodeField]
        split
        · rename_i h2; exact fun h => getStr_notDeep h2 (by cases h; rfl)
        rename_i nm _
        split
        · simp
        rename_i t h3
        have hdt := lookup_depth h3
        simp only [Json.depth] at hk
        split
        · rename_i h5
          have h4 := hd nm ns t (by omega) n
          rw [h5] at h4
          exact fun h => h4 (by cases h; rfl)
        · exact fun h => fieldRest_notDeep h rfl
      | _ => simp [decodeField]
    simp only [decodeFields]
    split
    · rename_i h2; rw [h2] at h1; exact fun h => h1 (by cases h; rfl)
    · rename_i t n1 h2
      have h3 := fields_notDeep hd (ns := ns) (js := js) (by omega) (n := n1)
      split
      · rename_i h4; rw [h4] at h3; exact fun h => h3 (by cases h; rfl)
      · simp

theorem record_notDeep {k : Nat} {dec : Decoder} (hd : NotDeep k dec) {ns : Str} {o : JObj}
    (hk : Json.depthEntries o ≤ k) {n : NS} : (decodeRecord dec ns o n).1 ≠ .error .deep := by
  unfold decodeRecord
  split
  · rename_i h2; exact fun h => recordHead_notDeep h2 (by cases h; rfl)
  rename_i q doc js h1
  obtain ⟨q', doc', js', h2, h3, h4, h5⟩ := recordHead_iff.1 h1
  cases h5
  have hdj := lookup_depth h4
  simp only [Json.depth] at hdj
  have h6 := fields_notDeep hd (ns := q.ns) (js := js) (by omega) (n := n)
  split
  · rename_i h7; rw [h7] at h6; exact fun h => h6 (by cases h; rfl)
  split
  · rename_i h8; exact fun h => parseAliases_notDeep h8 (by cases h; rfl)
  · simp

theorem itemOf_notDeep {k : Nat} {dec : Decoder} (hd : NotDeep k dec) {name ns key : Str} {o : JObj}
    {mk : PTy → Json → PTy} (hk : Json.depthEntries o ≤ k) {n : NS} :
    (itemOf dec name ns o key mk n).1 ≠ .error .deep := by
  unfold itemOf
  split
  · simp
  rename_i j h1
  have := lookup_depth h1
  have h2 := hd name ns j (by omega) n
  split
  · rename_i h3; rw [h3] at h2; exact fun h => h2 (by cases h; rfl)
  · simp

theorem decodeType_notDeep : ∀ k, NotDeep k (decodeType k)
  | 0 => fun name ns j hj => by have := depth_pos j; omega
  | k + 1 => by
    have ih := decodeType_notDeep k
    intro name ns j hj n
    cases j with
    | arr js =>
      simp only [Json.depth] at hj
      have h := members_notDeep ih (name := name) (ns := ns) (js := js) (by omega) (n := n)
      simp only [decodeType, decodeUnion]
      split
      · rename_i h1; rw [h1] at h; exact fun h' => h (by cases h'; rfl)
      · simp
    | obj o =>
      simp only [Json.depth] at hj
      simp only [decodeType, decodeComplex]
      split
      · rename_i h1; exact fun h => getStr_notDeep h1 (by cases h; rfl)
      rename_i ty _
      by_cases h1 : ty = "array".toList
      · rw [if_pos h1]; exact itemOf_notDeep ih (by omega)
      rw [if_neg h1]
      by_cases h2 : ty = "map".toList
      · rw [if_pos h2]; exact itemOf_notDeep ih (by omega)
      rw [if_neg h2]
      by_cases h3 : ty = "enum".toList
      · rw [if_pos h3]; exact registered_notDeep decodeEnum_notDeep
      rw [if_neg h3]
      by_cases h4 : ty = "fixed".toList
      · rw [if_pos h4]; exact registered_notDeep decodeFixed_notDeep
      rw [if_neg h4]
      by_cases h5 : ty = "record".toList
      · rw [if_pos h5]; exact registered_notDeep (record_notDeep ih (by omega))
      rw [if_neg h5]
      simp
    | _ => simp [decodeType]

end Verif
