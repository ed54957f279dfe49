import Verif.Spec.GoDecl
import Verif.Gen.NamesProof
/-
Names with what the generator puts before and behind them: when two of them are the same.
-/
set_option autoImplicit false
namespace Verif
open Spec Spec.Go

/-- What stands before the name of a type in the names that are made from it: templates/record.go:33, 45, 56 and 68. -/
def beforeNames : List Str := ["New".toList, "Deserialize".toList, "write".toList]

/-- What stands behind it: templates/record.go:31 and 56, array.go:28, enum.go:37, record_container.go:12 and 18. -/
def behindNames : List Str :=
  ["AvroCRC64Fingerprint".toList, "FromSchema".toList, "Wrapper".toList, "Value".toList, "Writer".toList, "Reader".toList]

/-- What stands between the name of a union and that of a member, templates/union.go:14-20. -/
def betweenNames : Str := "TypeEnum".toList

/-- A name that does not look as if it were made from another one. -/
structure Undecorated (x : Str) : Prop where
  exported : Exported x
  before : ∀ p ∈ beforeNames, ¬ p <+: x
  behind : ∀ s ∈ behindNames, ¬ s <:+ x
  between : ¬ betweenNames <:+: x

instance (x : Str) : Decidable (Undecorated x) :=
  decidable_of_iff (Exported x ∧ (∀ p ∈ beforeNames, ¬ p <+: x) ∧ (∀ s ∈ behindNames, ¬ s <:+ x) ∧ ¬ betweenNames <:+: x)
    ⟨fun ⟨a, b, c, d⟩ => ⟨a, b, c, d⟩, fun ⟨a, b, c, d⟩ => ⟨a, b, c, d⟩⟩

/-- A name made from another one. -/
inductive Composed where
  | name (p b s : Str)
  | member (b m : Str)
  deriving DecidableEq

def Composed.text : Composed → Str
  | .name p b s => p ++ (b ++ s)
  | .member b m => b ++ (betweenNames ++ m)

def Composed.Proper : Composed → Prop
  | .name p b s => (p = [] ∨ p ∈ beforeNames) ∧ Undecorated b ∧ (s = [] ∨ s ∈ behindNames)
  | .member b _ => Undecorated b

theorem behind_same {b b' s s' : Str} (hb : Undecorated b) (hb' : Undecorated b') (hs : s = [] ∨ s ∈ behindNames) (hs' : s' = [] ∨ s' ∈ behindNames)
    (h : b ++ s = b' ++ s') : b = b' ∧ s = s' := by
  have key : s = s' := by
    rcases hs with rfl | hs <;> rcases hs' with rfl | hs'
    · rfl
    · exact absurd ⟨b', by rw [← h, List.append_nil]⟩ (hb.behind s' hs')
    · exact absurd ⟨b, by rw [h, List.append_nil]⟩ (hb'.behind s hs)
    · have : ∀ s ∈ behindNames, ∀ s' ∈ behindNames, s <:+ s' ∨ s' <:+ s → s = s' := by decide +kernel
      exact this s hs s' hs' (List.suffix_or_suffix_of_suffix ⟨b, rfl⟩ ⟨b', h.symm⟩)
  subst key
  exact ⟨List.append_cancel_right h, rfl⟩

theorem exported_some {b : Str} (h : Exported b) : b ≠ [] := by rintro rfl; exact h

/-- A name does not start so. -/
theorem no_before {p b s : Str} (hp : p ∈ beforeNames) (hb : Undecorated b) (hs : s = [] ∨ s ∈ behindNames ∨ ∃ m, s = betweenNames ++ m) : ¬ p <+: b ++ s := by
  intro h
  rcases List.prefix_or_prefix_of_prefix h (List.prefix_append b s) with h1 | ⟨t, rfl⟩
  · exact hb.before p hp h1
  · obtain ⟨u, hu⟩ := h
    rw [List.append_assoc] at hu
    have hu := List.append_cancel_left hu
    cases t with
    | nil => exact hb.before _ hp (by rw [List.append_nil]; exact List.prefix_refl b)
    | cons c t =>
      have low : ∀ p ∈ beforeNames, ∀ x ∈ p.tail, ¬ UpperLetter x := by decide +kernel
      have hc : ¬ UpperLetter c := by
        cases b with
        | nil => exact (exported_some hb.exported rfl).elim
        | cons x xs => exact low _ hp c (by simp)
      rcases hs with rfl | hs | ⟨m, rfl⟩
      · cases hu
      · have up : ∀ s ∈ behindNames, ∀ x ∈ s.head?, UpperLetter x := by decide +kernel
        exact hc (up s hs c (by rw [← hu]; rfl))
      · have : c = 'T' := (List.cons.inj (show c :: (t ++ u) = 'T' :: ("ypeEnum".toList ++ m) from hu)).1
        subst this
        exact hc (by decide)

theorem parts_of_between {u v : Str} (e : betweenNames = u ++ v) : u.length < 9 ∧ u = betweenNames.take u.length ∧ v = betweenNames.drop u.length := by
  refine ⟨?_, by rw [e, List.take_left], by rw [e, List.drop_left]⟩
  have := congrArg List.length e
  rw [List.length_append, show betweenNames.length = 8 from by decide] at this
  omega

/-- There is no `TypeEnum` in it. -/
theorem no_between {p b s : Str} (hp : p = [] ∨ p ∈ beforeNames) (hb : Undecorated b) (hs : s = [] ∨ s ∈ behindNames) : ¬ betweenNames <:+: p ++ (b ++ s) := by
  intro h
  have h2 : ∀ s : Str, (s = [] ∨ s ∈ behindNames) → ¬ betweenNames <:+: s ∧ ∀ u v : Str, betweenNames = u ++ v → v <+: s → v = [] := by
    intro s hs
    have h1 : ∀ s ∈ [] :: behindNames, ¬ betweenNames <:+: s ∧ ∀ i < 9, betweenNames.drop i <+: s → betweenNames.drop i = [] := by decide +kernel
    have h1 := h1 s (by simpa using hs)
    exact ⟨h1.1, fun u v e hv => by obtain ⟨a, -, b⟩ := parts_of_between e; rw [b] at hv ⊢; exact h1.2 _ a hv⟩
  have h3 : ∀ p : Str, (p = [] ∨ p ∈ beforeNames) → ¬ betweenNames <:+: p ∧ ∀ u v : Str, betweenNames = u ++ v → u <:+ p → u = [] := by
    intro p hp
    have h1 : ∀ p ∈ [] :: beforeNames, ¬ betweenNames <:+: p ∧ ∀ i < 9, betweenNames.take i <:+ p → betweenNames.take i = [] := by decide +kernel
    have h1 := h1 p (by simpa using hp)
    exact ⟨h1.1, fun u v e hv => by obtain ⟨a, b, -⟩ := parts_of_between e; rw [b] at hv ⊢; exact h1.2 _ a hv⟩
  have h4 : ¬ betweenNames <:+: b ++ s := by
    intro h
    rcases List.infix_append_iff.1 h with h | h | ⟨u, v, e, hu, hv⟩
    · exact hb.between h
    · exact (h2 s hs).1 h
    · have := (h2 s hs).2 u v e hv
      subst this
      rw [List.append_nil] at e
      exact hb.between (e ▸ hu.isInfix)
  rcases List.infix_append_iff.1 h with h | h | ⟨u, v, e, hu, hv⟩
  · exact (h3 p hp).1 h
  · exact h4 h
  · have := (h3 p hp).2 u v e hu
    subst this
    exact h4 (e ▸ hv.isInfix)

/-- Where the first `TypeEnum` stands. -/
theorem between_same {b b' m m' : Str} (hb : ¬ betweenNames <:+: b) (hb' : ¬ betweenNames <:+: b') (h : b ++ (betweenNames ++ m) = b' ++ (betweenNames ++ m')) : b = b' ∧ m = m' := by
  have half : ∀ {b b' m m' : Str}, ¬ betweenNames <:+: b' → b ++ (betweenNames ++ m) = b' ++ (betweenNames ++ m') → ∀ t, b' = b ++ t → t = [] := by
    intro b b' m m' hb' h t e
    subst e
    rw [List.append_assoc] at h
    have h := List.append_cancel_left h
    rcases List.append_eq_append_iff.1 h with ⟨v, h1, h2⟩ | ⟨v, h1, h2⟩
    · exact absurd (h1 ▸ (List.prefix_append betweenNames v).isInfix.trans (List.suffix_append b _).isInfix) hb'
    · have hv : v <+: betweenNames ∨ betweenNames <+: v := List.prefix_or_prefix_of_prefix (List.prefix_append v m) ⟨m', h2⟩
      have hlen := congrArg List.length h1
      rw [List.length_append] at hlen
      have key : ∀ i < 9, betweenNames.drop i <+: betweenNames ∨ betweenNames <+: betweenNames.drop i → betweenNames.drop i = [] ∨ betweenNames.drop i = betweenNames := by decide +kernel
      obtain ⟨a, -, hd⟩ := parts_of_between h1
      have key := key _ a
      rw [← hd] at key
      rcases key hv with rfl | rfl
      · rw [List.append_nil] at h1
        exact absurd (h1 ▸ (List.suffix_append b t).isInfix) hb'
      · exact List.eq_nil_of_length_eq_zero (by omega)
  have hh : b = b' := by
    rcases List.append_eq_append_iff.1 h with ⟨t, h1, -⟩ | ⟨t, h1, -⟩
    · have := half hb' h t h1; subst this; rw [h1, List.append_nil]
    · have := half hb h.symm t h1; subst this; rw [h1, List.append_nil]
  subst hh
  exact ⟨rfl, List.append_cancel_left (List.append_cancel_left h)⟩

theorem composed_inj {f g : Composed} (hf : f.Proper) (hg : g.Proper) (h : f.text = g.text) : f = g := by
  have mixed : ∀ {p b s b' m : Str}, (Composed.name p b s).Proper → (Composed.name p b s).text ≠ (Composed.member b' m).text := by
    intro p b s b' m hp e
    have := no_between hp.1 hp.2.1 hp.2.2
    rw [show p ++ (b ++ s) = b' ++ (betweenNames ++ m) from e] at this
    exact this ⟨b', m, by rw [List.append_assoc]⟩
  cases f with
  | member b m => cases g with
    | member b' m' => obtain ⟨rfl, rfl⟩ := between_same hf.between hg.between h; rfl
    | name p b s => exact absurd h.symm (mixed hg)
  | name p b s => cases g with
    | member b' m' => exact absurd h (mixed hf)
    | name p' b' s' =>
      obtain ⟨hp, hb, hs⟩ := hf
      obtain ⟨hp', hb', hs'⟩ := hg
      have h : p ++ (b ++ s) = p' ++ (b' ++ s') := h
      have e : p = p' := by
        rcases hp with rfl | hp <;> rcases hp' with rfl | hp'
        · rfl
        · exact absurd ⟨_, h.symm⟩ (no_before hp' hb (hs.imp_right .inl))
        · exact absurd ⟨_, h⟩ (no_before hp hb' (hs'.imp_right .inl))
        · have : ∀ p ∈ beforeNames, ∀ p' ∈ beforeNames, p <+: p' ∨ p' <+: p → p = p' := by decide +kernel
          exact this p hp p' hp' (List.prefix_or_prefix_of_prefix ⟨_, rfl⟩ ⟨_, h.symm⟩)
      subst e
      obtain ⟨rfl, rfl⟩ := behind_same hb hb' hs hs' (List.append_cancel_left h)
      rfl

/-- Names that are made differently are different. -/
theorem composed_nodup {l : List Composed} (hl : ∀ f ∈ l, f.Proper) (h : l.Nodup) : (l.map Composed.text).Nodup := by
  unfold List.Nodup
  rw [List.pairwise_map]
  exact h.imp_of_mem fun ha hb hne e => hne (composed_inj (hl _ ha) (hl _ hb) e)

end Verif
