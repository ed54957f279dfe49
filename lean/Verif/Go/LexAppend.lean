import Verif.Go.Lex
/-
The tokens of two texts one after the other, the first of which ends a line.
-/
namespace Verif
open Spec.Go

/-- The text ends in a line end. -/
def Line (s : Str) : Prop := ∃ p, s = p ++ ['\n']

theorem line_of_cons {c : Char} {s : Str} (h : Line (c :: s)) : (c = '\n' ∧ s = []) ∨ Line s := by
  obtain ⟨p, hp⟩ := h
  cases p with
  | nil => left; simpa using hp
  | cons d p => right; simp only [List.cons_append, List.cons.injEq] at hp; exact ⟨p, hp.2⟩

theorem line_suffix {p s : Str} (h : Line (p ++ s)) (hs : s ≠ []) : Line s := by
  induction p with
  | nil => exact h
  | cons c p ih =>
    rcases line_of_cons h with ⟨_, h2⟩ | h2
    · exact absurd (List.append_eq_nil_iff.1 h2).2 hs
    · exact ih h2

theorem line_append {s t : Str} (h : Line t) : Line (s ++ t) := by
  obtain ⟨p, rfl⟩ := h; exact ⟨s ++ p, by simp⟩

theorem dropWhile_line {q : Char → Bool} {s : Str} (hq : q '\n' = false) (h : Line s) : s.dropWhile q ≠ [] := by
  obtain ⟨p, rfl⟩ := h
  induction p with
  | nil => rw [List.nil_append, List.dropWhile_cons, hq]; simp
  | cons c p ih =>
    rw [List.cons_append, List.dropWhile_cons]
    by_cases hc : q c = true
    · rw [if_pos hc]; exact ih
    · rw [if_neg hc]; simp

theorem dropWhile_cat {q : Char → Bool} {s : Str} (r : Str) (h : s.dropWhile q ≠ []) : (s ++ r).dropWhile q = s.dropWhile q ++ r := by
  induction s with
  | nil => exact absurd rfl h
  | cons c s ih =>
    rw [List.cons_append, List.dropWhile_cons, List.dropWhile_cons]
    by_cases hc : q c = true
    · rw [if_pos hc, if_pos hc]
      rw [List.dropWhile_cons, if_pos hc] at h
      exact ih h
    · rw [if_neg hc, if_neg hc]; rfl

theorem takeWhile_cat {q : Char → Bool} {s : Str} (r : Str) (h : s.dropWhile q ≠ []) : (s ++ r).takeWhile q = s.takeWhile q := by
  induction s with
  | nil => exact absurd rfl h
  | cons c s ih =>
    rw [List.cons_append, List.takeWhile_cons, List.takeWhile_cons]
    by_cases hc : q c = true
    · rw [if_pos hc, if_pos hc]
      rw [List.dropWhile_cons, if_pos hc] at h
      rw [ih h]
    · rw [if_neg hc, if_neg hc]

theorem hexNumber_cat : ∀ (k acc : Nat) (s r : Str) {x : Nat × Str}, hexNumber k acc s = some x → hexNumber k acc (s ++ r) = some (x.1, x.2 ++ r)
  | 0, acc, s, r, x, h => by cases h; rfl
  | k + 1, acc, [], r, x, h => by cases h
  | k + 1, acc, c :: s, r, x, h => by
    rw [hexNumber] at h
    rw [List.cons_append, hexNumber]
    cases hd : hexDigit c with
    | none => rw [hd] at h; cases h
    | some d => rw [hd] at h; exact hexNumber_cat k _ s r h

theorem hexNumber_suffix : ∀ (k acc : Nat) (s : Str) {x : Nat × Str}, hexNumber k acc s = some x → ∃ p, s = p ++ x.2
  | 0, acc, s, x, h => by cases h; exact ⟨[], rfl⟩
  | k + 1, acc, [], x, h => by cases h
  | k + 1, acc, c :: s, x, h => by
    rw [hexNumber] at h
    cases hd : hexDigit c with
    | none => rw [hd] at h; cases h
    | some d =>
      rw [hd] at h
      obtain ⟨p, hp⟩ := hexNumber_suffix k _ s h
      exact ⟨c :: p, by rw [hp]; rfl⟩

theorem element_cat {s : Str} (r : Str) {v : List Byte} {t : Str} (h : element s = some (v, t)) :
    element (s ++ r) = some (v, t ++ r) ∧ ∃ p, s = p ++ t := by
  cases s with
  | nil => cases h
  | cons c s =>
    rw [List.cons_append]
    simp only [element] at h ⊢
    by_cases h1 : c = '\n'
    · rw [if_pos h1] at h; cases h
    rw [if_neg h1] at h ⊢
    by_cases h2 : c ≠ '\\'
    · rw [if_pos h2] at h ⊢; cases h; exact ⟨rfl, [c], rfl⟩
    rw [if_neg h2] at h ⊢
    cases s with
    | nil => cases h
    | cons e s =>
      simp only [List.cons_append] at h ⊢
      by_cases h3 : e = 'x'
      · rw [if_pos h3, Option.map_eq_some_iff] at h
        obtain ⟨x, hx, hy⟩ := h
        cases hy
        rw [if_pos h3, hexNumber_cat _ _ _ r hx]
        obtain ⟨p, hp⟩ := hexNumber_suffix _ _ _ hx
        exact ⟨rfl, c :: e :: p, by rw [hp]; rfl⟩
      rw [if_neg h3] at h ⊢
      by_cases h4 : e = 'u'
      · rw [if_pos h4, Option.bind_eq_some_iff] at h
        obtain ⟨x, hx, hy⟩ := h
        rw [Option.map_eq_some_iff] at hy
        obtain ⟨y, hy', hy⟩ := hy
        cases hy
        rw [if_pos h4, hexNumber_cat _ _ _ r hx]
        obtain ⟨p, hp⟩ := hexNumber_suffix _ _ _ hx
        exact ⟨by simp only [Option.bind_some, hy', Option.map_some], c :: e :: p, by rw [hp]; rfl⟩
      rw [if_neg h4] at h ⊢
      by_cases h5 : e = 'U'
      · rw [if_pos h5, Option.bind_eq_some_iff] at h
        obtain ⟨x, hx, hy⟩ := h
        rw [Option.map_eq_some_iff] at hy
        obtain ⟨y, hy', hy⟩ := hy
        cases hy
        rw [if_pos h5, hexNumber_cat _ _ _ r hx]
        obtain ⟨p, hp⟩ := hexNumber_suffix _ _ _ hx
        exact ⟨by simp only [Option.bind_some, hy', Option.map_some], c :: e :: p, by rw [hp]; rfl⟩
      rw [if_neg h5, Option.map_eq_some_iff] at h
      obtain ⟨x, hx, hy⟩ := h
      cases hy
      rw [if_neg h5, hx]
      exact ⟨rfl, [c, e], rfl⟩

/-- A literal reads the same with more behind it; what is left is not the whole of a line. -/
theorem strLit_cat : ∀ (n : Nat) {m : Nat} {s : Str} (r : Str) {v : List Byte} {t : Str}, strLit n s = some (v, t) → n ≤ m →
    strLit m (s ++ r) = some (v, t ++ r) ∧ ∃ p, s = p ++ '"' :: t
  | 0, m, s, r, v, t, h, _ => by cases h
  | n + 1, 0, s, r, v, t, _, hm => by omega
  | n + 1, m + 1, [], r, v, t, h, _ => by cases h
  | n + 1, m + 1, c :: s, r, v, t, h, hm => by
    rw [strLit] at h
    rw [List.cons_append, strLit]
    by_cases h1 : c = '"'
    · rw [if_pos h1] at h ⊢
      cases h
      exact ⟨rfl, [], by rw [h1]; rfl⟩
    · rw [if_neg h1] at h ⊢
      cases he : element (c :: s) with
      | none => rw [he] at h; cases h
      | some x =>
        obtain ⟨w, u⟩ := x
        rw [he] at h
        simp only [Option.map_eq_some_iff] at h
        obtain ⟨y, hy, e⟩ := h
        obtain ⟨h2, p, hp⟩ := element_cat r he
        obtain ⟨h3, q, hq⟩ := strLit_cat n (m := m) r (v := y.1) (t := y.2) hy (by omega)
        cases e
        rw [List.cons_append] at h2
        rw [h2]
        exact ⟨by simp only [h3, Option.map_some], p ++ q, by rw [hp, hq, List.append_assoc]⟩

/-- The tokens of a text that ends a line, and then those of what follows. -/
theorem toks_cat : ∀ (n : Nat) {b : Bool} {s : Str} {us : List Tok}, tokensFrom n b s = some us → Line s → ∀ {r : Str} {vs : List Tok},
    Toks false r vs → Toks b (s ++ r) (us ++ vs)
  | 0, b, s, us, h, _, r, vs, _ => by cases h
  | n + 1, b, [], us, _, hl, r, vs, _ => by obtain ⟨p, hp⟩ := hl; simp at hp
  | n + 1, b, c :: s, us, h, hl, r, vs, hr => by
    rw [tokensFrom_cons] at h
    by_cases h1 : c = '\n'
    · rw [if_pos h1, Option.map_eq_some_iff] at h
      obtain ⟨x, hx, rfl⟩ := h
      have hh : Toks false (s ++ r) (x ++ vs) := by
        rcases line_of_cons hl with ⟨-, h2⟩ | h2
        · subst h2
          cases n with
          | zero => cases hx
          | succ n => cases hx; exact hr
        · exact toks_cat n hx h2 hr
      obtain ⟨m, hm⟩ := hh
      exact ⟨m + 1, by rw [List.cons_append, tokensFrom_cons, if_pos h1, hm]; simp⟩
    rw [if_neg h1] at h
    have hl' : Line s := by
      rcases line_of_cons hl with ⟨h2, -⟩ | h2
      · exact absurd h2 h1
      · exact h2
    by_cases h2 : c = ' ' ∨ c = '\t' ∨ c = '\r'
    · rw [if_pos h2] at h
      obtain ⟨m, hm⟩ := toks_cat n h hl' hr
      exact ⟨m + 1, by rw [List.cons_append, tokensFrom_cons, if_neg h1, if_pos h2, hm]⟩
    rw [if_neg h2] at h
    by_cases h3 : c = '/'
    · rw [if_pos h3] at h
      unfold afterSlash at h
      split at h
      · rename_i s'
        have hd := dropWhile_line (q := fun x => decide (x ≠ '\n')) (by simp) (line_of_cons hl' |>.resolve_left (by rintro ⟨hc, -⟩; exact absurd hc (by decide)))
        have hl2 : Line (s'.dropWhile (fun x => decide (x ≠ '\n'))) := by
          refine line_suffix (p := '/' :: s'.takeWhile (fun x => decide (x ≠ '\n'))) ?_ hd
          rw [List.cons_append, List.takeWhile_append_dropWhile]; exact hl'
        obtain ⟨m, hm⟩ := toks_cat n h hl2 hr
        refine ⟨m + 1, ?_⟩
        rw [List.cons_append, tokensFrom_cons, if_neg h1, if_neg h2, if_pos h3]
        show tokensFrom m b ((s' ++ r).dropWhile _) = _
        rw [dropWhile_cat r hd, hm]
      · cases h
    rw [if_neg h3] at h
    by_cases h4 : c = '`'
    · rw [if_pos h4] at h
      cases hd : s.dropWhile (fun x => decide (x ≠ '`')) with
      | nil => rw [hd] at h; cases h
      | cons d t =>
        rw [hd] at h
        simp only [Option.map_eq_some_iff] at h
        obtain ⟨x, hx, rfl⟩ := h
        have hne : s.dropWhile (fun x => decide (x ≠ '`')) ≠ [] := by rw [hd]; simp
        have hdc : d = '`' := by
          have := List.head_dropWhile_not (fun x => decide (x ≠ '`')) hne
          simp only [hd, List.head_cons] at this
          simpa using this
        have hlt : Line (d :: t) := by
          refine line_suffix (p := s.takeWhile (fun x => decide (x ≠ '`'))) ?_ (by simp)
          rw [← hd, List.takeWhile_append_dropWhile]; exact hl'
        have hl2 : Line t := (line_of_cons hlt).resolve_left (by rintro ⟨hc, -⟩; rw [hdc] at hc; exact absurd hc (by decide))
        obtain ⟨m, hm⟩ := toks_cat n hx hl2 hr
        refine ⟨m + 1, ?_⟩
        rw [List.cons_append, tokensFrom_cons, if_neg h1, if_neg h2, if_neg h3, if_pos h4, dropWhile_cat r hne, takeWhile_cat r hne, hd]
        simp only [List.cons_append, hm, Option.map_some]
    rw [if_neg h4] at h
    by_cases h5 : c = '"'
    · rw [if_pos h5] at h
      cases hd : strLit s.length s with
      | none => rw [hd] at h; cases h
      | some y =>
        obtain ⟨v, t⟩ := y
        rw [hd] at h
        simp only [Option.map_eq_some_iff] at h
        obtain ⟨x, hx, rfl⟩ := h
        obtain ⟨h6, p, hp⟩ := strLit_cat s.length (m := (s ++ r).length) r hd (by simp)
        have hlt : Line ('"' :: t) := line_suffix (p := p) (by rw [← hp]; exact hl') (by simp)
        have hl2 : Line t := (line_of_cons hlt).resolve_left (by rintro ⟨hc, -⟩; exact absurd hc (by decide))
        obtain ⟨m, hm⟩ := toks_cat n hx hl2 hr
        refine ⟨m + 1, ?_⟩
        rw [List.cons_append, tokensFrom_cons, if_neg h1, if_neg h2, if_neg h3, if_neg h4, if_pos h5, h6]
        simp only [hm, Option.map_some, List.cons_append]
    rw [if_neg h5] at h
    by_cases h6 : wordChar c = true
    · rw [if_pos h6, Option.map_eq_some_iff] at h
      obtain ⟨x, hx, rfl⟩ := h
      have hd := dropWhile_line (q := wordChar) (by decide) hl'
      have hl2 : Line (s.dropWhile wordChar) := by
        refine line_suffix (p := s.takeWhile wordChar) ?_ hd
        rw [List.takeWhile_append_dropWhile]; exact hl'
      obtain ⟨m, hm⟩ := toks_cat n hx hl2 hr
      refine ⟨m + 1, ?_⟩
      rw [List.cons_append, tokensFrom_cons, if_neg h1, if_neg h2, if_neg h3, if_neg h4, if_neg h5, if_pos h6, dropWhile_cat r hd, takeWhile_cat r hd, hm]
      rfl
    rw [if_neg h6] at h
    by_cases h7 : c ∈ signs
    · rw [if_pos h7, Option.map_eq_some_iff] at h
      obtain ⟨x, hx, rfl⟩ := h
      obtain ⟨m, hm⟩ := toks_cat n hx hl' hr
      refine ⟨m + 1, ?_⟩
      rw [List.cons_append, tokensFrom_cons, if_neg h1, if_neg h2, if_neg h3, if_neg h4, if_neg h5, if_neg h6, if_pos h7, hm]
      rfl
    rw [if_neg h7] at h; cases h

/-- The tokens of two texts, the first of which ends a line, are those of the first and those of the second. -/
theorem tokens_cat {a b : Str} {us vs : List Tok} (ha : tokens a = some us) (hl : Line a) (hb : tokens b = some vs) :
    tokens (a ++ b) = some (us ++ vs) := by
  unfold tokens at ha hb ⊢
  by_cases h1 : a.any forbidden = true
  · rw [if_pos h1] at ha; cases ha
  by_cases h2 : b.any forbidden = true
  · rw [if_pos h2] at hb; cases hb
  rw [if_neg h1] at ha
  rw [if_neg h2] at hb
  have h3 : ¬ (a ++ b).any forbidden = true := by
    rw [List.any_append, Bool.or_eq_true]; rintro (h | h)
    · exact h1 h
    · exact h2 h
  rw [if_neg h3]
  obtain ⟨m, hm⟩ := toks_cat _ ha hl ⟨_, hb⟩
  exact tokensFrom_enough m hm (Nat.lt_succ_self _)

end Verif
