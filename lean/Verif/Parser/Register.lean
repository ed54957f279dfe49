import Verif.Parser.Lemmas
/-
`RegisterDefinition` over histories.
-/
namespace Verif
open Spec
set_option linter.unusedSimpArgs false
set_option linter.unusedVariables false

/-- One registration after the other, up to the first error. -/
def registerAll (n : NS) : List PDef → Except PErr Unit × NS
  | [] => (.ok (), n)
  | d :: ds => match register n d with
    | (.error e, n') => (.error e, n')
    | (.ok (), n') => registerAll n' ds

theorem registerAll_append (ds ds' : List PDef) : ∀ n : NS, registerAll n (ds ++ ds') =
    match registerAll n ds with
    | (.error e, n') => (.error e, n')
    | (.ok (), n') => registerAll n' ds' := by
  induction ds with
  | nil => intro n; rfl
  | cons d ds ih =>
    intro n
    simp only [List.cons_append, registerAll]
    rcases register n d with ⟨r, n'⟩
    cases r with
    | error e => rfl
    | ok u => cases u; exact ih n'

theorem lookup_snoc {α β : Type} [DecidableEq α] (l : List (α × β)) (a : α) (b : β) (q : α) :
    (l ++ [(a, b)]).lookup q = (l.lookup q).or (if q = a then some b else none) := by
  induction l with
  | nil =>
    simp only [List.nil_append, List.lookup, Option.none_or]
    by_cases h : q = a
    · subst h; simp
    · have h' : (q == a) = false := beq_eq_false_iff_ne.2 h
      simp [h', h]
  | cons e l ih =>
    obtain ⟨k, v⟩ := e
    simp only [List.cons_append, List.lookup]
    by_cases h : q = k
    · subst h; simp
    · have h' : (q == k) = false := beq_eq_false_iff_ne.2 h
      simp [h', ih]

theorem registerAliases_ok {d : PDef} : ∀ {as : List QName} {n n' : NS},
    registerAliases d as n = (.ok (), n') →
      (∀ a ∈ as, n.find a = none) ∧ as.Nodup ∧ n'.roots = n.roots ∧ n'.shortUnions = n.shortUnions ∧
      ∀ q, n'.find q = (n.find q).or (if q ∈ as then some d else none)
  | [], n, n', h => by
    cases h
    refine ⟨by simp, .nil, rfl, rfl, fun q => by simp⟩
  | a :: as, n, n', h => by
    simp only [registerAliases] at h
    split at h
    · cases h
    · rename_i ha
      obtain ⟨h1, h2, h3, h4, h5⟩ := registerAliases_ok h
      have h6 : ∀ q, NS.find { n with defs := n.defs ++ [(a, d)] } q =
          (n.find q).or (if q = a then some d else none) := fun q => lookup_snoc _ _ _ _
      refine ⟨?_, ?_, h3, h4, ?_⟩
      · intro b hb
        rcases List.mem_cons.1 hb with rfl | hb
        · exact ha
        · have := h1 b hb
          rw [h6] at this
          cases hn : n.find b with
          | none => rfl
          | some x => rw [hn] at this; cases this
      · refine List.nodup_cons.2 ⟨fun hm => ?_, h2⟩
        have := h1 a hm
        rw [h6, ha] at this
        simp at this
      · intro q
        rw [h5 q, h6]
        cases hn : n.find q with
        | some x => rfl
        | none =>
          simp only [Option.none_or, List.mem_cons]
          by_cases hq : q = a <;> by_cases hm : q ∈ as <;> simp [hq, hm]

theorem registerAliases_fails {d : PDef} : ∀ {as : List QName} {n : NS},
    (∀ a ∈ as, n.find a = none) → as.Nodup → (registerAliases d as n).1 = .ok ()
  | [], n, _, _ => rfl
  | a :: as, n, h1, h2 => by
    simp only [registerAliases]
    rw [h1 a (by simp)]
    refine registerAliases_fails ?_ (List.nodup_cons.1 h2).2
    intro b hb
    show NS.find { n with defs := n.defs ++ [(a, d)] } b = none
    have h6 : NS.find { n with defs := n.defs ++ [(a, d)] } b =
        (n.find b).or (if b = a then some d else none) := lookup_snoc _ _ _ _
    rw [h6, h1 b (by simp [hb])]
    have : b ≠ a := by rintro rfl; exact (List.nodup_cons.1 h2).1 hb
    simp [this]

/-- The namespace after the definitions `ds` have been registered. -/
structure Holds (n : NS) (ds : List PDef) : Prop where
  find : ∀ q d, n.find q = some d ↔ d ∈ ds ∧ KnownAs d q
  compatible : Compatible ds
  roots : ∀ d, Root.defn d ∈ n.roots ↔ d ∈ ds

theorem holds_empty (b : Bool) : Holds { shortUnions := b } [] where
  find q d := by simp [NS.find]
  compatible := ⟨by simp, by simp⟩
  roots d := by simp

theorem Holds.find_none {n : NS} {ds : List PDef} (h : Holds n ds) {q : QName} :
    n.find q = none ↔ ∀ d ∈ ds, ¬ KnownAs d q := by
  constructor
  · intro hn d hd hk
    rw [(h.find q d).2 ⟨hd, hk⟩] at hn
    cases hn
  · intro hk
    cases hf : n.find q with
    | none => rfl
    | some d => exact absurd ((h.find q d).1 hf).2 (hk d ((h.find q d).1 hf).1)

/-- What registration does to a namespace. -/
theorem Holds.register {n : NS} {ds : List PDef} (h : Holds n ds) (d : PDef) :
    ((register n d).1 = .ok () ↔ Compatible (ds ++ [d])) ∧
    ((register n d).1 = .ok () → Holds (register n d).2 (ds ++ [d]) ∧
      (register n d).2.shortUnions = n.shortUnions) := by
  unfold Verif.register
  cases hf : n.find d.name with
  | some cur =>
    obtain ⟨hc1, hc2⟩ := (h.find _ _).1 hf
    by_cases hcd : cur = d
    · subst hcd
      simp only [if_true, true_iff]
      have hcomp : Compatible (ds ++ [cur]) := by
        refine ⟨fun d hd => ?_, fun d hd d' hd' => ?_⟩
        · simp at hd; rcases hd with hd | rfl
          · exact h.compatible.1 d hd
          · exact h.compatible.1 d hc1
        · simp at hd hd'
          have h1 : d ∈ ds := by rcases hd with hd | rfl <;> assumption
          have h2 : d' ∈ ds := by rcases hd' with hd | rfl <;> assumption
          exact h.compatible.2 d h1 d' h2
      refine ⟨hcomp, fun _ => ⟨⟨fun q d => ?_, hcomp, fun d => ?_⟩, by simp⟩⟩
      · rw [h.find]
        simp only [List.mem_append, List.mem_singleton]
        constructor
        · rintro ⟨a, b⟩; exact ⟨.inl a, b⟩
        · rintro ⟨a | rfl, b⟩
          · exact ⟨a, b⟩
          · exact ⟨hc1, b⟩
      · rw [h.roots]
        simp only [List.mem_append, List.mem_singleton]
        constructor
        · exact .inl
        · rintro (a | rfl)
          · exact a
          · exact hc1
    · simp only [if_neg hcd, reduceCtorEq, false_iff, false_imp_iff, and_true]
      intro hcomp
      exact hcd (hcomp.2 cur (by simp [hc1]) d (by simp) d.name hc2 (.inl rfl))
  | none =>
    have hnew := h.find_none.1 hf
    let n1 : NS := { n with defs := n.defs ++ [(d.name, d)], roots := n.roots ++ [.defn d] }
    have hn1 : ∀ q, n1.find q = (n.find q).or (if q = d.name then some d else none) :=
      fun q => lookup_snoc _ _ _ _
    show ((registerAliases d d.aliases n1).1 = .ok () ↔ _) ∧ _
    constructor
    · constructor
      · intro hr
        obtain ⟨h1, h2, h3, h4, h5⟩ := registerAliases_ok (n' := (registerAliases d d.aliases n1).2)
          (Prod.ext hr rfl)
        have hal : ∀ q, KnownAs d q → ∀ d' ∈ ds, ¬ KnownAs d' q := by
          intro q hq d' hd' hk
          rcases hq with rfl | hq
          · exact hnew d' hd' hk
          · have := h1 q hq
            rw [hn1, (h.find q d').2 ⟨hd', hk⟩] at this
            cases this
        refine ⟨fun d' hd' => ?_, fun a ha b hb q hqa hqb => ?_⟩
        · simp at hd'
          rcases hd' with hd' | rfl
          · exact h.compatible.1 d' hd'
          · refine List.nodup_cons.2 ⟨fun hm => ?_, h2⟩
            have := h1 _ hm
            rw [hn1, hf] at this
            simp at this
        · simp at ha hb
          rcases ha with ha | rfl <;> rcases hb with hb | rfl
          · exact h.compatible.2 a ha b hb q hqa hqb
          · exact absurd hqa (hal q hqb a ha)
          · exact absurd hqb (hal q hqa b hb)
          · rfl
      · intro hcomp
        refine registerAliases_fails ?_ (List.nodup_cons.1 (hcomp.1 d (by simp))).2
        intro a ha
        rw [hn1]
        have h1 : a ≠ d.name := by
          rintro rfl; exact (List.nodup_cons.1 (hcomp.1 d (by simp))).1 ha
        have h2 : n.find a = none := h.find_none.2 fun d' hd' hk => by
          have := hcomp.2 d' (by simp [hd']) d (by simp) a hk (.inr ha)
          subst this
          exact hnew d' hd' (.inl rfl)
        rw [h2]; simp [h1]
    · intro hr
      obtain ⟨h1, h2, h3, h4, h5⟩ := registerAliases_ok (n' := (registerAliases d d.aliases n1).2)
        (Prod.ext hr rfl)
      have hal : ∀ q, KnownAs d q → ∀ d' ∈ ds, ¬ KnownAs d' q := by
        intro q hq d' hd' hk
        rcases hq with rfl | hq
        · exact hnew d' hd' hk
        · have := h1 q hq
          rw [hn1, (h.find q d').2 ⟨hd', hk⟩] at this
          cases this
      refine ⟨⟨fun q d' => ?_, ?_, fun d' => ?_⟩, h4⟩
      · show (registerAliases d d.aliases n1).2.find q = some d' ↔ _
        rw [h5, hn1]
        simp only [List.mem_append, List.mem_singleton]
        constructor
        · intro hq
          cases hnq : n.find q with
          | some x =>
            rw [hnq] at hq
            cases hq
            exact ⟨.inl ((h.find q _).1 hnq).1, ((h.find q _).1 hnq).2⟩
          | none =>
            rw [hnq] at hq
            by_cases h6 : q = d.name
            · simp [h6] at hq; subst hq; exact ⟨.inr rfl, .inl h6⟩
            · by_cases h7 : q ∈ d.aliases
              · simp [h6, h7] at hq; subst hq; exact ⟨.inr rfl, .inr h7⟩
              · simp [h6, h7] at hq
        · rintro ⟨hd' | rfl, hk⟩
          · rw [(h.find q d').2 ⟨hd', hk⟩]; rfl
          · rw [h.find_none.2 (hal q hk)]
            rcases hk with h6 | h7
            · simp [h6]
            · simp only [Option.none_or, h7, if_true]
              split <;> rfl
      · refine ⟨fun d' hd' => ?_, fun a ha b hb q hqa hqb => ?_⟩
        · simp at hd'
          rcases hd' with hd' | rfl
          · exact h.compatible.1 d' hd'
          · refine List.nodup_cons.2 ⟨fun hm => ?_, h2⟩
            have := h1 _ hm
            rw [hn1, hf] at this
            simp at this
        · simp at ha hb
          rcases ha with ha | rfl <;> rcases hb with hb | rfl
          · exact h.compatible.2 a ha b hb q hqa hqb
          · exact absurd hqa (hal q hqb a ha)
          · exact absurd hqb (hal q hqa b hb)
          · rfl
      · show Root.defn d' ∈ (registerAliases d d.aliases n1).2.roots ↔ _
        rw [h3]
        show Root.defn d' ∈ n.roots ++ [.defn d] ↔ _
        simp only [List.mem_append, List.mem_singleton, Root.defn.injEq, h.roots]

theorem Compatible.prefix {ds ds' : List PDef} (h : Compatible (ds ++ ds')) : Compatible ds :=
  ⟨fun d hd => h.1 d (by simp [hd]), fun d hd d' hd' => h.2 d (by simp [hd]) d' (by simp [hd'])⟩

/-- A sequence of registrations. -/
theorem Holds.registerAll {n : NS} {ds : List PDef} (h : Holds n ds) : ∀ ds' : List PDef,
    ((registerAll n ds').1 = .ok () ↔ Compatible (ds ++ ds')) ∧
    ((registerAll n ds').1 = .ok () → Holds (registerAll n ds').2 (ds ++ ds') ∧
      (registerAll n ds').2.shortUnions = n.shortUnions) := by
  intro ds'
  induction ds' generalizing n ds with
  | nil =>
    rw [List.append_nil]
    exact ⟨⟨fun _ => h.compatible, fun _ => rfl⟩, fun _ => ⟨h, rfl⟩⟩
  | cons d ds' ih =>
    obtain ⟨h1, h2⟩ := h.register d
    simp only [Verif.registerAll]
    rcases hr : Verif.register n d with ⟨r, n'⟩
    rw [hr] at h1 h2
    cases r with
    | error e =>
      simp only [reduceCtorEq, false_iff, false_imp_iff, and_true]
      intro hc
      have : Compatible (ds ++ [d]) := Compatible.prefix (ds' := ds') (by simpa using hc)
      simpa using h1.2 this
    | ok u =>
      obtain ⟨h3, h4⟩ := h2 rfl
      have := ih h3
      simp only [List.append_assoc, List.singleton_append] at this
      refine ⟨this.1, fun hok => ?_⟩
      obtain ⟨h5, h6⟩ := this.2 hok
      exact ⟨h5, h6.trans h4⟩

end Verif
