import Verif.Go.QuoteProof
/-
The tokens of a text put together from pieces.
-/
namespace Verif
open Spec.Go

/-- The text has these tokens, for some number of steps. -/
def Toks (b : Bool) (s : Str) (ts : List Tok) : Prop := ∃ n, tokensFrom n b s = some ts

/-- What follows a slash. -/
def afterSlash (n : Nat) (b : Bool) : Str → Option (List Tok)
  | '/' :: s => tokensFrom n b (s.dropWhile (· ≠ '\n'))
  | _ => none

theorem tokensFrom_cons (n : Nat) (b : Bool) (c : Char) (s : Str) : tokensFrom (n + 1) b (c :: s) =
    if c = '\n' then (tokensFrom n false s).map fun ts => (if b then [.sign ';'] else []) ++ ts
    else if c = ' ' ∨ c = '\t' ∨ c = '\r' then tokensFrom n b s
    else if c = '/' then afterSlash n b s
    else if c = '`' then match s.dropWhile (· ≠ '`') with
      | [] => none
      | _ :: r => (tokensFrom n true r).map (.text (((s.takeWhile (· ≠ '`')).filter (· ≠ '\r')).flatMap charBytes) :: ·)
    else if c = '"' then match strLit s.length s with
      | none => none
      | some (v, r) => (tokensFrom n true r).map (.text v :: ·)
    else if wordChar c then
      (tokensFrom n (Tok.ends (.word (c :: s.takeWhile wordChar))) (s.dropWhile wordChar)).map
        (.word (c :: s.takeWhile wordChar) :: ·)
    else if c ∈ signs then (tokensFrom n (Tok.ends (.sign c)) s).map (.sign c :: ·)
    else none := rfl

theorem hexNumber_le : ∀ (k acc : Nat) (s : Str) {x : Nat × Str}, hexNumber k acc s = some x → x.2.length ≤ s.length
  | 0, acc, s, x, h => by cases h; exact Nat.le_refl _
  | k + 1, acc, [], x, h => by cases h
  | k + 1, acc, c :: s, x, h => by
    rw [hexNumber] at h
    cases hd : hexDigit c with
    | none => rw [hd] at h; cases h
    | some d =>
      rw [hd] at h
      have := hexNumber_le k _ s h
      simp only [List.length_cons]; omega

theorem element_lt {s r : Str} {v : List Byte} (h : element s = some (v, r)) : r.length < s.length := by
  cases s with
  | nil => cases h
  | cons c s =>
    simp only [element] at h
    by_cases h1 : c = '\n'
    · rw [if_pos h1] at h; cases h
    rw [if_neg h1] at h
    by_cases h2 : c ≠ '\\'
    · rw [if_pos h2] at h; cases h; simp
    rw [if_neg h2] at h
    cases s with
    | nil => cases h
    | cons e s =>
      simp only at h
      by_cases h3 : e = 'x'
      · rw [if_pos h3, Option.map_eq_some_iff] at h
        obtain ⟨x, hx, hy⟩ := h
        cases hy
        have := hexNumber_le _ _ _ hx
        simp only [List.length_cons]; omega
      rw [if_neg h3] at h
      by_cases h4 : e = 'u'
      · rw [if_pos h4, Option.bind_eq_some_iff] at h
        obtain ⟨x, hx, hy⟩ := h
        rw [Option.map_eq_some_iff] at hy
        obtain ⟨y, _, hy⟩ := hy
        cases hy
        have := hexNumber_le _ _ _ hx
        simp only [List.length_cons]; omega
      rw [if_neg h4] at h
      by_cases h5 : e = 'U'
      · rw [if_pos h5, Option.bind_eq_some_iff] at h
        obtain ⟨x, hx, hy⟩ := h
        rw [Option.map_eq_some_iff] at hy
        obtain ⟨y, _, hy⟩ := hy
        cases hy
        have := hexNumber_le _ _ _ hx
        simp only [List.length_cons]; omega
      rw [if_neg h5, Option.map_eq_some_iff] at h
      obtain ⟨x, hx, hy⟩ := h
      cases hy
      simp only [List.length_cons]; omega

theorem strLit_lt : ∀ (n : Nat) {s r : Str} {v : List Byte}, strLit n s = some (v, r) → r.length < s.length
  | 0, s, r, v, h => by cases h
  | n + 1, [], r, v, h => by cases h
  | n + 1, c :: s, r, v, h => by
    rw [strLit] at h
    by_cases h1 : c = '"'
    · rw [if_pos h1] at h; cases h; simp
    · rw [if_neg h1] at h
      cases he : element (c :: s) with
      | none => rw [he] at h; cases h
      | some x =>
        rw [he] at h
        simp only [Option.map_eq_some_iff] at h
        obtain ⟨y, hy, e⟩ := h
        cases e
        have := strLit_lt n hy
        have := element_lt he
        omega

theorem dropWhile_le {α : Type} (p : α → Bool) (l : List α) : (l.dropWhile p).length ≤ l.length :=
  (List.dropWhile_suffix p).length_le

/-- More steps do no harm, and as many as there are characters are enough. -/
theorem tokensFrom_enough : ∀ (n : Nat) {m : Nat} {b : Bool} {s : Str} {ts : List Tok}, tokensFrom n b s = some ts →
    s.length < m → tokensFrom m b s = some ts
  | 0, m, b, s, ts, h, _ => by cases h
  | n + 1, 0, b, s, ts, _, hm => by omega
  | n + 1, m + 1, b, [], ts, h, _ => h
  | n + 1, m + 1, b, c :: s, ts, h, hm => by
    simp only [List.length_cons] at hm
    rw [tokensFrom_cons] at h ⊢
    by_cases h1 : c = '\n'
    · rw [if_pos h1] at h ⊢
      rw [Option.map_eq_some_iff] at h ⊢
      obtain ⟨x, hx, e⟩ := h
      exact ⟨x, tokensFrom_enough n hx (by omega), e⟩
    rw [if_neg h1] at h ⊢
    by_cases h2 : c = ' ' ∨ c = '\t' ∨ c = '\r'
    · rw [if_pos h2] at h ⊢; exact tokensFrom_enough n h (by omega)
    rw [if_neg h2] at h ⊢
    by_cases h3 : c = '/'
    · rw [if_pos h3] at h ⊢
      unfold afterSlash at h ⊢
      split at h
      · refine tokensFrom_enough n h ?_
        rename_i s'
        have := dropWhile_le (fun x => decide (x ≠ '\n')) s'
        simp only [List.length_cons] at hm; omega
      · cases h
    rw [if_neg h3] at h ⊢
    by_cases h4 : c = '`'
    · rw [if_pos h4] at h ⊢
      cases hd : s.dropWhile (fun x => decide (x ≠ '`')) with
      | nil => rw [hd] at h; cases h
      | cons d r =>
        rw [hd] at h
        simp only [Option.map_eq_some_iff] at h ⊢
        obtain ⟨x, hx, e⟩ := h
        have := dropWhile_le (fun x => decide (x ≠ '`')) s
        rw [hd] at this
        simp only [List.length_cons] at this
        exact ⟨x, tokensFrom_enough n hx (by omega), e⟩
    rw [if_neg h4] at h ⊢
    by_cases h5 : c = '"'
    · rw [if_pos h5] at h ⊢
      cases hd : strLit s.length s with
      | none => rw [hd] at h; cases h
      | some x =>
        rw [hd] at h
        simp only [Option.map_eq_some_iff] at h ⊢
        obtain ⟨y, hy, e⟩ := h
        have := strLit_lt _ hd
        exact ⟨y, tokensFrom_enough n hy (by omega), e⟩
    rw [if_neg h5] at h ⊢
    by_cases h6 : wordChar c = true
    · rw [if_pos h6] at h ⊢
      rw [Option.map_eq_some_iff] at h ⊢
      obtain ⟨x, hx, e⟩ := h
      have := dropWhile_le wordChar s
      exact ⟨x, tokensFrom_enough n hx (by omega), e⟩
    rw [if_neg h6] at h ⊢
    by_cases h7 : c ∈ signs
    · rw [if_pos h7] at h ⊢
      rw [Option.map_eq_some_iff] at h ⊢
      obtain ⟨x, hx, e⟩ := h
      exact ⟨x, tokensFrom_enough n hx (by omega), e⟩
    · rw [if_neg h7] at h; cases h

theorem tokens_of {s : Str} {ts : List Tok} (hs : ∀ c ∈ s, forbidden c = false) (h : Toks false s ts) : tokens s = some ts := by
  obtain ⟨n, h⟩ := h
  unfold tokens
  rw [if_neg (by simpa using hs)]
  exact tokensFrom_enough n h (Nat.lt_succ_self _)

theorem tokens_unique {b : Bool} {s : Str} {ts ts' : List Tok} (h : Toks b s ts) (h' : Toks b s ts') : ts = ts' := by
  obtain ⟨n, h⟩ := h
  obtain ⟨m, h'⟩ := h'
  have e1 := tokensFrom_enough n h (Nat.lt_succ_self _)
  have e2 := tokensFrom_enough m h' (Nat.lt_succ_self _)
  rw [e1] at e2; exact Option.some.inj e2

theorem mem_takeWhile_holds {p : Char → Bool} {x : Char} : ∀ {s : Str}, x ∈ s.takeWhile p → p x = true
  | c :: s, h => by
    rw [List.takeWhile_cons] at h
    by_cases hc : p c = true
    · rw [if_pos hc] at h
      rcases List.mem_cons.1 h with rfl | h
      · exact hc
      · exact mem_takeWhile_holds h
    · rw [if_neg hc] at h; cases h

/-! Pieces -/

theorem toks_nil (b : Bool) : Toks b [] (if b then [.sign ';'] else []) := ⟨1, rfl⟩

theorem toks_newline {b : Bool} {s : Str} {ts : List Tok} (h : Toks false s ts) :
    Toks b ('\n' :: s) ((if b then [.sign ';'] else []) ++ ts) := by
  obtain ⟨n, h⟩ := h
  refine ⟨n + 1, ?_⟩
  rw [tokensFrom_cons, if_pos rfl, h]; rfl

theorem toks_space {b : Bool} {c : Char} {s : Str} {ts : List Tok} (hc : c = ' ' ∨ c = '\t' ∨ c = '\r') (h : Toks b s ts) :
    Toks b (c :: s) ts := by
  obtain ⟨n, h⟩ := h
  refine ⟨n + 1, ?_⟩
  have : c ≠ '\n' := by rcases hc with rfl | rfl | rfl <;> decide
  rw [tokensFrom_cons, if_neg this, if_pos hc, h]

theorem dropWhile_to {d s : Str} {c : Char} (h : c ∉ d) : (d ++ c :: s).dropWhile (fun x => decide (x ≠ c)) = c :: s := by
  induction d with
  | nil => simp
  | cons a d ih =>
    simp only [List.mem_cons, not_or] at h
    rw [List.cons_append, List.dropWhile_cons, if_pos (by simpa using Ne.symm h.1), ih h.2]

theorem takeWhile_to {d s : Str} {c : Char} (h : c ∉ d) : (d ++ c :: s).takeWhile (fun x => decide (x ≠ c)) = d := by
  induction d with
  | nil => simp
  | cons a d ih =>
    simp only [List.mem_cons, not_or] at h
    rw [List.cons_append, List.takeWhile_cons, if_pos (by simpa using Ne.symm h.1), ih h.2]

theorem toks_comment {b : Bool} {d s : Str} {ts : List Tok} (hd : '\n' ∉ d) (h : Toks b ('\n' :: s) ts) :
    Toks b ('/' :: '/' :: (d ++ '\n' :: s)) ts := by
  obtain ⟨n, h⟩ := h
  refine ⟨n + 1, ?_⟩
  rw [tokensFrom_cons, if_neg (by decide), if_neg (by decide), if_pos rfl]
  simp only [afterSlash]
  rw [dropWhile_to hd, h]

theorem toks_raw {b : Bool} {v s : Str} {ts : List Tok} (hv : '`' ∉ v) (h : Toks true s ts) :
    Toks b ('`' :: (v ++ '`' :: s)) (.text ((v.filter (· ≠ '\r')).flatMap charBytes) :: ts) := by
  obtain ⟨n, h⟩ := h
  refine ⟨n + 1, ?_⟩
  rw [tokensFrom_cons, if_neg (by decide), if_neg (by decide), if_neg (by decide), if_pos rfl, dropWhile_to hv, takeWhile_to hv]
  simp only [h]; rfl

theorem toks_quoted {print : Char → Bool} (hp : print '\n' = false) {b : Bool} (bs : List Byte) {s : Str} {ts : List Tok}
    (h : Toks true s ts) : Toks b (quoted print bs ++ s) (.text bs :: ts) := by
  obtain ⟨n, h⟩ := h
  refine ⟨n + 1, ?_⟩
  have e : quoted print bs ++ s = '"' :: (quoteFrom print bs.length (bs.map UInt8.ofBitVec) ++ '"' :: s) := by
    simp [quoted]
  rw [e, tokensFrom_cons, if_neg (by decide), if_neg (by decide),
    if_neg (by decide), if_neg (by decide), if_pos rfl]
  rw [literal_back print hp s _ _ _ (by simp) (by simp)]
  have : (bs.map UInt8.ofBitVec).map UInt8.toBitVec = bs := by
    rw [List.map_map]
    have e : (UInt8.toBitVec ∘ UInt8.ofBitVec) = id := rfl
    rw [e, List.map_id]
  simp only [this, h, Option.map_some]

/-- The text does not go on a word. -/
def Apart (s : Str) : Prop := ∀ c r, s = c :: r → wordChar c = false

theorem dropWhile_words {w s : Str} (hw : ∀ c ∈ w, wordChar c = true) (hs : Apart s) :
    (w ++ s).dropWhile wordChar = s ∧ (w ++ s).takeWhile wordChar = w := by
  induction w with
  | nil =>
    cases s with
    | nil => exact ⟨rfl, rfl⟩
    | cons c r =>
      have := hs c r rfl
      simp [this]
  | cons a w ih =>
    have ha := hw a (by simp)
    obtain ⟨h1, h2⟩ := ih (fun c hc => hw c (by simp [hc]))
    constructor
    · rw [List.cons_append, List.dropWhile_cons, if_pos ha, h1]
    · rw [List.cons_append, List.takeWhile_cons, if_pos ha, h2]

theorem wordChar_other {c : Char} (h : wordChar c = true) : c ≠ '\n' ∧ ¬(c = ' ' ∨ c = '\t' ∨ c = '\r') ∧ c ≠ '/' ∧ c ≠ '`' ∧ c ≠ '"' := by
  refine ⟨?_, ?_, ?_, ?_, ?_⟩
  · rintro rfl; revert h; decide
  · rintro (rfl | rfl | rfl) <;> (revert h; decide)
  · rintro rfl; revert h; decide
  · rintro rfl; revert h; decide
  · rintro rfl; revert h; decide

theorem toks_word {b : Bool} {w s : Str} {ts : List Tok} (hn : w ≠ []) (hw : ∀ c ∈ w, wordChar c = true) (hs : Apart s)
    (h : Toks (Tok.ends (.word w)) s ts) : Toks b (w ++ s) (.word w :: ts) := by
  obtain ⟨n, h⟩ := h
  refine ⟨n + 1, ?_⟩
  cases w with
  | nil => exact absurd rfl hn
  | cons c w =>
    have hc := hw c (by simp)
    obtain ⟨h1, h2, h3, h4, h5⟩ := wordChar_other hc
    obtain ⟨e1, e2⟩ := dropWhile_words (fun c hc => hw c (by simp [hc])) hs (w := w)
    rw [List.cons_append, tokensFrom_cons, if_neg h1, if_neg h2, if_neg h3, if_neg h4, if_neg h5, if_pos hc, e1, e2, h]; rfl

theorem signs_other {c : Char} (h : c ∈ signs) :
    (c ≠ '\n' ∧ ¬(c = ' ' ∨ c = '\t' ∨ c = '\r') ∧ c ≠ '/' ∧ c ≠ '`' ∧ c ≠ '"') ∧ wordChar c = false := by
  have : ∀ c ∈ signs, (c ≠ '\n' ∧ ¬(c = ' ' ∨ c = '\t' ∨ c = '\r') ∧ c ≠ '/' ∧ c ≠ '`' ∧ c ≠ '"') ∧ wordChar c = false := by
    decide +kernel
  exact this c h

theorem toks_sign {b : Bool} {c : Char} {s : Str} {ts : List Tok} (hc : c ∈ signs) (h : Toks (Tok.ends (.sign c)) s ts) :
    Toks b (c :: s) (.sign c :: ts) := by
  obtain ⟨n, h⟩ := h
  refine ⟨n + 1, ?_⟩
  obtain ⟨⟨h1, h2, h3, h4, h5⟩, h6⟩ := signs_other hc
  rw [tokensFrom_cons, if_neg h1, if_neg h2, if_neg h3, if_neg h4, if_neg h5, if_neg (by simp [h6]), if_pos hc, h]; rfl

/-- The tokens of a constant piece of a template that ends in no word, and whether the last one asks for a
semicolon. -/
def frag : Nat → Bool → Str → Option (List Tok × Bool)
  | 0, _, _ => none
  | _ + 1, b, [] => some ([], b)
  | n + 1, b, c :: s =>
    if c = '\n' then (frag n false s).map fun x => ((if b then [.sign ';'] else []) ++ x.1, x.2)
    else if c = ' ' ∨ c = '\t' ∨ c = '\r' then frag n b s
    else if wordChar c then
      if s.dropWhile wordChar = [] then none else
      (frag n (Tok.ends (.word (c :: s.takeWhile wordChar))) (s.dropWhile wordChar)).map fun x =>
        (.word (c :: s.takeWhile wordChar) :: x.1, x.2)
    else if c ∈ signs then (frag n (Tok.ends (.sign c)) s).map fun x => (.sign c :: x.1, x.2)
    else none

theorem toks_frag : ∀ (n : Nat) {b b' : Bool} {c s : Str} {us ts : List Tok}, frag n b c = some (us, b') → Toks b' s ts →
    Toks b (c ++ s) (us ++ ts)
  | 0, b, b', c, s, us, ts, h, _ => by cases h
  | n + 1, b, b', [], s, us, ts, h, hs => by cases h; exact hs
  | n + 1, b, b', c :: r, s, us, ts, h, hs => by
    rw [frag] at h
    by_cases h1 : c = '\n'
    · rw [if_pos h1, Option.map_eq_some_iff] at h
      obtain ⟨x, hx, e⟩ := h
      cases e
      subst h1
      have := toks_frag n hx hs
      rw [List.cons_append, List.append_assoc]
      exact toks_newline this
    rw [if_neg h1] at h
    by_cases h2 : c = ' ' ∨ c = '\t' ∨ c = '\r'
    · rw [if_pos h2] at h
      exact toks_space h2 (toks_frag n h hs)
    rw [if_neg h2] at h
    by_cases h3 : wordChar c = true
    · rw [if_pos h3] at h
      by_cases h4 : r.dropWhile wordChar = []
      · rw [if_pos h4] at h; cases h
      rw [if_neg h4, Option.map_eq_some_iff] at h
      obtain ⟨x, hx, e⟩ := h
      cases e
      have := toks_frag n hx hs
      have e : (c :: r) ++ s = (c :: r.takeWhile wordChar) ++ (r.dropWhile wordChar ++ s) := by
        rw [← List.append_assoc, List.cons_append (as := r.takeWhile wordChar), List.takeWhile_append_dropWhile]
      rw [e]
      refine toks_word (by simp) ?_ ?_ this
      · intro y hy
        rcases List.mem_cons.1 hy with rfl | hy
        · exact h3
        · exact mem_takeWhile_holds hy
      · intro y q hq
        cases hd : r.dropWhile wordChar with
        | nil => exact absurd hd h4
        | cons z zs =>
          rw [hd, List.cons_append] at hq
          cases hq
          have := List.head?_dropWhile_not wordChar r
          rw [hd] at this
          simpa using this
    rw [if_neg h3] at h
    by_cases h5 : c ∈ signs
    · rw [if_pos h5, Option.map_eq_some_iff] at h
      obtain ⟨x, hx, e⟩ := h
      cases e
      exact toks_sign h5 (toks_frag n hx hs)
    · rw [if_neg h5] at h; cases h

end Verif
