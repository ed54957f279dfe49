import Verif.Parser.Parse
import Verif.Spec.SchemaDoc
/-
The parser does what the rules of `Spec/SchemaDoc.lean` say.
-/
namespace Verif
open Spec
set_option linter.unusedSimpArgs false
set_option linter.unusedVariables false

theorem Json.str_inj {a b : Str} : (Json.str a = Json.str b) ↔ a = b := by simp

/-! Attributes. -/

theorem getStr_iff {o : JObj} {k s : Str} : getStr o k = .ok s ↔ o.lookup k = some (.str s) := by
  unfold getStr
  split <;> rename_i h <;> rw [h]
  · simp
  · simp
  · rename_i j hj
    simp only [reduceCtorEq, Option.some.injEq, false_iff]
    rintro rfl
    exact hj _ rfl

theorem getArr_iff {o : JObj} {k : Str} {l : List Json} : getArr o k = .ok l ↔ o.lookup k = some (.arr l) := by
  unfold getArr
  split <;> rename_i h <;> rw [h]
  · simp
  · simp
  · rename_i j hj
    simp only [reduceCtorEq, Option.some.injEq, false_iff]
    rintro rfl
    exact hj _ rfl

theorem optStr_iff {o : JObj} {k s : Str} : optStr o k = .ok s ↔ OptAttr o k s := by
  unfold optStr OptAttr
  split <;> rename_i h <;> rw [h]
  · simp [eq_comm]
  · simp
  · rename_i j hj
    simp only [reduceCtorEq, Option.some.injEq, false_and, or_false, false_iff]
    rintro rfl
    exact hj _ rfl

theorem strings_iff {k : Str} : ∀ {l : List Json} {ss : List Str}, strings k l = .ok ss ↔ l = ss.map .str
  | [], ss => by cases ss <;> simp [strings]
  | j :: js, ss => by
    cases j with
    | str s =>
      simp only [strings, bind, Except.bind]
      cases h : strings k js with
      | error e =>
        simp only [reduceCtorEq, false_iff]
        intro h'
        cases ss with
        | nil => simp at h'
        | cons x xs =>
          simp only [List.map_cons, List.cons.injEq] at h'
          rw [strings_iff.2 h'.2] at h
          cases h
      | ok xs =>
        have := (strings_iff (k := k)).1 h
        cases ss with
        | nil => simp
        | cons y ys =>
          simp only [Except.ok.injEq, List.cons.injEq, List.map_cons, Json.str_inj]
          constructor
          · rintro ⟨rfl, rfl⟩; exact ⟨rfl, this⟩
          · rintro ⟨rfl, h2⟩
            refine ⟨rfl, ?_⟩
            have h3 := (strings_iff (k := k)).2 h2
            rw [h] at h3
            cases h3; rfl
    | _ => cases ss <;> simp [strings]

theorem truncReal_eq (b : BitVec 64) : truncReal b = (double.scaled b).tdiv (2 ^ double.scale) := by
  have hs : double.scale = 1074 := rfl
  rw [hs]
  have hneg : double.neg b = true ↔ b.toNat / 2 ^ 63 = 1 := by
    have := b.isLt
    have h2 : double.neg b = decide (2 ^ 63 ≤ b.toNat) := rfl
    rw [h2, decide_eq_true_eq]
    omega
  have hlow : double.low b = b.toNat % 2 ^ 63 := rfl
  have hexp : double.low b / 2 ^ double.p = (b.toNat / 2 ^ 52) % 2 ^ 11 := by
    rw [hlow]; show b.toNat % 2 ^ 63 / 2 ^ 52 = _
    omega
  have hfr : double.low b % 2 ^ double.p = b.toNat % 2 ^ 52 := by
    rw [hlow]; show b.toNat % 2 ^ 63 % 2 ^ 52 = _
    omega
  have hm : (double.mag (double.low b)) / 2 ^ 1074 =
      (if (b.toNat / 2 ^ 52) % 2 ^ 11 = 0 then 0 else if (b.toNat / 2 ^ 52) % 2 ^ 11 ≤ 1075 then
        (b.toNat % 2 ^ 52 + 2 ^ 52) / 2 ^ (1075 - (b.toNat / 2 ^ 52) % 2 ^ 11)
        else (b.toNat % 2 ^ 52 + 2 ^ 52) * 2 ^ ((b.toNat / 2 ^ 52) % 2 ^ 11 - 1075)) := by
    unfold Fmt.mag
    rw [hexp, hfr]
    generalize (b.toNat / 2 ^ 52) % 2 ^ 11 = e
    have hf : b.toNat % 2 ^ 52 < 2 ^ 52 := Nat.mod_lt _ (by decide)
    generalize b.toNat % 2 ^ 52 = f at hf
    by_cases h0 : e = 0
    · simp only [h0, if_true]
      exact Nat.div_eq_of_lt (Nat.lt_of_lt_of_le hf (Nat.pow_le_pow_right (by decide) (by decide)))
    · rw [if_neg h0, if_neg h0]
      have hp : double.p = 52 := rfl
      rw [hp, Nat.add_comm (2 ^ 52) f]
      generalize f + 2 ^ 52 = m
      split
      · rename_i h1
        have : (2 : Nat) ^ 1074 = 2 ^ (1075 - e) * 2 ^ (e - 1) := by
          rw [← Nat.pow_add]; congr 1; omega
        rw [this]
        exact Nat.mul_div_mul_right _ _ (Nat.pow_pos (by decide))
      · rename_i h1
        have : (2 : Nat) ^ (e - 1) = 2 ^ (e - 1075) * 2 ^ 1074 := by
          rw [← Nat.pow_add]; congr 1; omega
        rw [this, ← Nat.mul_assoc]
        exact Nat.mul_div_cancel _ (Nat.pow_pos (by decide))
  unfold truncReal Fmt.scaled
  simp only []
  rw [← hm]
  by_cases h : double.neg b = true
  · rw [if_pos h, if_pos (hneg.1 h), Int.neg_tdiv]
    congr 1
  · rw [if_neg h, if_neg (fun h' => h (hneg.2 h'))]
    rfl

theorem getInt_iff {o : JObj} {n : Int} : getInt o "size".toList = .ok n ↔ FixedSize o n := by
  unfold getInt FixedSize
  split <;> rename_i h <;> rw [h]
  · simp
  · simp
  · simp only [Except.ok.injEq, truncReal_eq, Option.some.injEq, reduceCtorEq, false_or, Json.real.injEq]
    constructor
    · rintro rfl; exact ⟨_, rfl, rfl⟩
    · rintro ⟨b, rfl, rfl⟩; rfl
  · rename_i j h1 h2
    simp only [reduceCtorEq, Option.some.injEq, false_iff, not_or, not_exists, not_and]
    constructor
    · rintro rfl; exact h1 _ rfl
    · rintro b rfl; exact absurd rfl (h2 _)

/-! Names. -/

theorem lastDot_split {ns n : Str} (h : '.' ∉ n) :
    beforeLastDot (ns ++ '.' :: n) = ns ∧ afterLastDot (ns ++ '.' :: n) = n := by
  have h1 : ∀ c ∈ n.reverse, decide (c ≠ '.') = true := by
    intro c hc
    simp only [decide_eq_true_eq]
    rintro rfl
    exact h (List.mem_reverse.1 hc)
  constructor
  · unfold beforeLastDot
    simp only [List.reverse_append, List.reverse_cons, List.append_assoc]
    rw [List.dropWhile_append_of_pos h1]
    simp
  · unfold afterLastDot
    simp only [List.reverse_append, List.reverse_cons, List.append_assoc]
    rw [List.takeWhile_append_of_pos h1]
    simp

theorem afterLastDot_plain {n : Str} (h : '.' ∉ n) : afterLastDot n = n := by
  have h1 : ∀ c ∈ n.reverse, decide (c ≠ '.') = true := by
    intro c hc
    simp only [decide_eq_true_eq]
    rintro rfl
    exact h (List.mem_reverse.1 hc)
  unfold afterLastDot
  have := List.takeWhile_append_of_pos (l₂ := []) h1
  rw [List.append_nil] at this
  rw [this]; simp

/-- Every name is plain or has a last dot. -/
theorem plain_or_dotted (s : Str) : '.' ∉ s ∨ ∃ ns n, '.' ∉ n ∧ s = ns ++ '.' :: n := by
  induction s with
  | nil => left; simp
  | cons c s ih =>
    rcases ih with h | ⟨ns, n, h, rfl⟩
    · by_cases hc : c = '.'
      · exact .inr ⟨[], s, h, by rw [hc]; rfl⟩
      · left; simp [h, Ne.symm hc, eq_comm, hc]
    · exact .inr ⟨c :: ns, n, h, rfl⟩

theorem parseAvroName_iff {enc s : Str} {q : QName} : parseAvroName enc s = q ↔ FullName enc s q := by
  have hf : FullName enc s (parseAvroName enc s) := by
    unfold parseAvroName
    rcases plain_or_dotted s with h | ⟨ns, n, h, rfl⟩
    · rw [if_neg h, afterLastDot_plain h]; exact .plain _ h
    · rw [if_pos (by simp), (lastDot_split h).1, (lastDot_split h).2]; exact .dotted _ _ h
  constructor
  · rintro rfl; exact hf
  · intro h
    cases h with
    | dotted ns n h => unfold parseAvroName; rw [if_pos (by simp), (lastDot_split h).1, (lastDot_split h).2]
    | plain n h => unfold parseAvroName; rw [if_neg h, afterLastDot_plain h]

theorem parseAvroNames_iff {enc : Str} : ∀ {ss : List Str} {qs : List QName},
    ss.map (parseAvroName enc) = qs ↔ Each (FullName enc) ss qs
  | [], qs => by
    constructor
    · rintro rfl; exact .nil
    · intro h; cases h; rfl
  | s :: ss, qs => by
    constructor
    · rintro rfl; exact .cons (parseAvroName_iff.1 rfl) (parseAvroNames_iff.1 rfl)
    · intro h
      cases h with
      | cons h1 h2 => rw [List.map_cons, parseAvroName_iff.2 h1, parseAvroNames_iff.2 h2]

theorem avroName_iff {o : JObj} {enc : Str} {q : QName} : avroName o enc = .ok q ↔ NameOf enc o q := by
  unfold avroName NameOf
  simp only [bind, Except.bind]
  constructor
  · intro h
    split at h
    · cases h
    · rename_i name h1
      split at h
      · cases h
      · rename_i ns h2
        exact ⟨name, ns, getStr_iff.1 h1, optStr_iff.1 h2, parseAvroName_iff.1 (by cases h; rfl)⟩
  · rintro ⟨name, ns, h1, h2, h3⟩
    rw [getStr_iff.2 h1, optStr_iff.2 h2]
    exact congrArg Except.ok (parseAvroName_iff.2 h3)

theorem fieldAliases_iff {o : JObj} {ss : List Str} :
    fieldAliases o = .ok ss ↔ OptStrings o "aliases".toList ss := by
  unfold fieldAliases OptStrings
  split <;> rename_i h <;> rw [h]
  · simp [eq_comm]
  · simp [strings_iff]
  · rename_i j hj
    simp only [reduceCtorEq, Option.some.injEq, false_and, or_false, false_iff]
    rintro rfl
    exact hj _ rfl

theorem parseAliases_eq (o : JObj) (ns : Str) :
    parseAliases o ns = (fieldAliases o).map (List.map (parseAvroName ns)) := by
  unfold parseAliases fieldAliases
  split
  · rfl
  · simp only [bind, Except.bind]
    cases strings "aliases".toList _ <;> rfl
  · rfl

theorem parseAliases_iff {o : JObj} {ns : Str} {qs : List QName} :
    parseAliases o ns = .ok qs ↔ AliasesOf ns o qs := by
  rw [parseAliases_eq]
  unfold AliasesOf
  constructor
  · intro h
    cases h1 : fieldAliases o with
    | error e => rw [h1] at h; cases h
    | ok ss =>
      rw [h1] at h
      exact ⟨ss, fieldAliases_iff.1 h1, parseAvroNames_iff.1 (by cases h; rfl)⟩
  · rintro ⟨ss, h1, h2⟩
    rw [fieldAliases_iff.2 h1, ← parseAvroNames_iff.2 h2]; rfl

theorem primNamed_iff {s : Str} {p : Prim} : primNamed s = some p ↔ (s, p) ∈ primNames := by
  constructor
  · intro h
    unfold primNamed at h
    repeat' split at h
    all_goals first
      | (cases h; done)
      | (rename_i hs; cases h; subst hs; decide)
  · intro h
    simp only [primNames, List.mem_cons, Prod.mk.injEq, List.not_mem_nil, or_false] at h
    rcases h with ⟨rfl, rfl⟩ | ⟨rfl, rfl⟩ | ⟨rfl, rfl⟩ | ⟨rfl, rfl⟩ | ⟨rfl, rfl⟩ | ⟨rfl, rfl⟩ | ⟨rfl, rfl⟩ | ⟨rfl, rfl⟩ <;> decide

theorem primNamed_none {s : Str} : primNamed s = none ↔ ∀ p, (s, p) ∉ primNames := by
  constructor
  · intro h p hp
    rw [primNamed_iff.2 hp] at h; cases h
  · intro h
    cases hp : primNamed s with
    | none => rfl
    | some p => exact absurd (primNamed_iff.1 hp) (h p)

end Verif
