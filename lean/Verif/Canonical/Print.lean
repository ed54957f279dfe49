import Verif.Canonical.Form
/-
The text of a canonical form determines it.
-/
namespace Verif
open Spec
set_option linter.unusedSimpArgs false

/-- The text does not go on with a digit. -/
def Stops (r : Str) : Prop := ∀ c ∈ r.head?, c.isDigit = false

theorem Stops.cons {c : Char} {r : Str} (h : c.isDigit = false) : Stops (c :: r) := by
  intro x hx; simp at hx; subst hx; exact h

/-- Reads one character of a string literal. -/
def unq : Str → Option (Char × Str)
  | '\\' :: 'u' :: a :: b :: c :: d :: r => match hexDigit a, hexDigit b, hexDigit c, hexDigit d with
    | some x, some y, some z, some w => some (Char.ofNat (((x * 16 + y) * 16 + z) * 16 + w), r)
    | _, _, _, _ => none
  | '\\' :: 'n' :: r => some ('\n', r)
  | '\\' :: 'r' :: r => some ('\r', r)
  | '\\' :: 't' :: r => some ('\t', r)
  | '\\' :: c :: r => some (c, r)
  | c :: r => some (c, r)
  | [] => none

theorem unq_u (n : Nat) (h : n < 65536) (r : Str) : unq (uEscape n ++ r) = some (Char.ofNat n, r) := by
  simp only [uEscape, List.cons_append, List.nil_append, unq]
  rw [hexDigit_lowerHex _ (Nat.mod_lt _ (by omega)), hexDigit_lowerHex _ (Nat.mod_lt _ (by omega)),
    hexDigit_lowerHex _ (Nat.mod_lt _ (by omega)), hexDigit_lowerHex _ (Nat.mod_lt _ (by omega))]
  dsimp only
  congr 3
  omega

theorem escaped_small (c : Char) (h : escaped c = true) : c.toNat < 65536 := by
  unfold escaped at h
  simp only [Bool.or_eq_true, decide_eq_true_eq, beq_iff_eq] at h
  rcases h with (((((((h | rfl) | rfl) | rfl) | rfl) | rfl) | h) | h)
  all_goals first | omega | decide

theorem unq_quoteChar (c : Char) (r : Str) : unq (quoteChar c ++ r) = some (c, r) := by
  unfold quoteChar
  by_cases he : escaped c = true
  · rw [if_pos he]
    by_cases h1 : c = '"'
    · rw [if_pos h1]; subst h1; rfl
    rw [if_neg h1]
    by_cases h2 : c = '\\'
    · rw [if_pos h2]; subst h2; rfl
    rw [if_neg h2]
    by_cases h3 : c = '\n'
    · rw [if_pos h3]; subst h3; rfl
    rw [if_neg h3]
    by_cases h4 : c = '\r'
    · rw [if_pos h4]; subst h4; rfl
    rw [if_neg h4]
    by_cases h5 : c = '\t'
    · rw [if_pos h5]; subst h5; rfl
    rw [if_neg h5, unq_u _ (escaped_small c he), Char.ofNat_toNat]
  · rw [if_neg he]
    have hc : c ≠ '\\' := by rintro rfl; exact he (by decide)
    simp only [List.cons_append, List.nil_append]
    unfold unq
    split <;> simp_all

theorem quoteChar_head (c : Char) (r : Str) : ∃ x l, quoteChar c ++ r = x :: l ∧ x ≠ '"' := by
  unfold quoteChar
  by_cases he : escaped c = true
  · rw [if_pos he]
    refine ⟨'\\', ?_⟩
    by_cases h1 : c = '"'
    · rw [if_pos h1]; exact ⟨_, rfl, by decide⟩
    rw [if_neg h1]
    by_cases h2 : c = '\\'
    · rw [if_pos h2]; exact ⟨_, rfl, by decide⟩
    rw [if_neg h2]
    by_cases h3 : c = '\n'
    · rw [if_pos h3]; exact ⟨_, rfl, by decide⟩
    rw [if_neg h3]
    by_cases h4 : c = '\r'
    · rw [if_pos h4]; exact ⟨_, rfl, by decide⟩
    rw [if_neg h4]
    by_cases h5 : c = '\t'
    · rw [if_pos h5]; exact ⟨_, rfl, by decide⟩
    rw [if_neg h5]; exact ⟨_, rfl, by decide⟩
  · rw [if_neg he]
    refine ⟨c, r, rfl, ?_⟩
    rintro rfl; exact he (by decide)

theorem quoteBody_inj : ∀ {s s' r r' : Str}, s.flatMap quoteChar ++ '"' :: r = s'.flatMap quoteChar ++ '"' :: r' →
    s = s' ∧ r = r'
  | [], [], r, r', h => by simpa using h
  | [], c :: s', r, r', h => by
    obtain ⟨x, l, e, hx⟩ := quoteChar_head c (s'.flatMap quoteChar ++ '"' :: r')
    simp only [List.flatMap_nil, List.nil_append, List.flatMap_cons, List.append_assoc] at h
    rw [e] at h
    exact absurd (List.cons.inj h).1.symm hx
  | c :: s, [], r, r', h => by
    obtain ⟨x, l, e, hx⟩ := quoteChar_head c (s.flatMap quoteChar ++ '"' :: r)
    simp only [List.flatMap_nil, List.nil_append, List.flatMap_cons, List.append_assoc] at h
    rw [e] at h
    exact absurd (List.cons.inj h).1 hx
  | c :: s, c' :: s', r, r', h => by
    simp only [List.flatMap_cons, List.append_assoc] at h
    have h1 := unq_quoteChar c (s.flatMap quoteChar ++ '"' :: r)
    rw [h, unq_quoteChar] at h1
    simp only [Option.some.injEq, Prod.mk.injEq] at h1
    obtain ⟨rfl, h2⟩ := h1
    obtain ⟨rfl, rfl⟩ := quoteBody_inj h2.symm
    exact ⟨rfl, rfl⟩

theorem quote_inj {s s' r r' : Str} (h : quote s ++ r = quote s' ++ r') : s = s' ∧ r = r' := by
  simp only [quote, List.cons_append, List.append_assoc, List.nil_append, List.cons.injEq, true_and] at h
  exact quoteBody_inj h

theorem digits_take (l r : Str) (h : ∀ c ∈ l, c.isDigit = true) (hr : Stops r) : (l ++ r).takeWhile Char.isDigit = l := by
  induction l with
  | nil =>
    cases r with
    | nil => rfl
    | cons c r => simp [List.takeWhile, hr c (by simp)]
  | cons c l ih =>
    simp only [List.cons_append, List.takeWhile_cons, h c (by simp), if_true]
    rw [ih fun c hc => h c (by simp [hc])]

theorem digits_inj {n m : Nat} {r r' : Str} (h : Nat.toDigits 10 n ++ r = Nat.toDigits 10 m ++ r') (hr : Stops r)
    (hr' : Stops r') : n = m ∧ r = r' := by
  have hd : ∀ n, ∀ c ∈ Nat.toDigits 10 n, c.isDigit = true := fun n c hc =>
    Nat.isDigit_of_mem_toDigits (by omega) (by omega) hc
  have h1 := digits_take _ r (hd n) hr
  rw [h, digits_take _ r' (hd m) hr'] at h1
  rw [h1] at h
  refine ⟨?_, List.append_cancel_left h⟩
  rw [← Nat.ofDigitChars_ten_toDigits (n := n), ← h1, Nat.ofDigitChars_ten_toDigits]

theorem digits_head (n : Nat) (r : Str) : ∃ x l, Nat.toDigits 10 n ++ r = x :: l ∧ x.isDigit = true := by
  cases h : Nat.toDigits 10 n with
  | nil => exact absurd h Nat.toDigits_ne_nil
  | cons x l => exact ⟨x, _, rfl, Nat.isDigit_of_mem_toDigits (b := 10) (n := n) (by omega) (by omega) (by simp [h])⟩

theorem printInt_head (n : Int) (r : Str) : ∃ x l, printInt n ++ r = x :: l ∧ (x = '-' ∨ x.isDigit = true) := by
  cases n with
  | ofNat n => obtain ⟨x, l, h1, h2⟩ := digits_head n r; exact ⟨x, l, h1, .inr h2⟩
  | negSucc n => exact ⟨_, _, rfl, .inl rfl⟩

theorem printInt_inj {n m : Int} {r r' : Str} (h : printInt n ++ r = printInt m ++ r') (hr : Stops r)
    (hr' : Stops r') : n = m ∧ r = r' := by
  cases n with
  | ofNat n =>
    cases m with
    | ofNat m =>
      obtain ⟨rfl, rfl⟩ := digits_inj h hr hr'; exact ⟨rfl, rfl⟩
    | negSucc m =>
      obtain ⟨x, l, h1, h2⟩ := digits_head n r
      simp only [printInt, List.cons_append] at h
      rw [h1] at h
      rw [(List.cons.inj h).1] at h2
      exact absurd h2 (by decide)
  | negSucc n =>
    cases m with
    | ofNat m =>
      obtain ⟨x, l, h1, h2⟩ := digits_head m r'
      simp only [printInt, List.cons_append] at h
      rw [h1] at h
      rw [← (List.cons.inj h).1] at h2
      exact absurd h2 (by decide)
    | negSucc m =>
      simp only [printInt, List.cons_append, List.cons.injEq, true_and] at h
      obtain ⟨h1, rfl⟩ := digits_inj h hr hr'
      have : n = m := by omega
      subst this
      exact ⟨rfl, rfl⟩

/-- The kind of a value. -/
def Canon.lead : Canon → Nat
  | .str _ => 0
  | .arr _ => 1
  | .obj _ => 2
  | .num _ => 3

/-- The kind of value a text begins. -/
def leadOf (c : Char) : Nat :=
  if c = '"' then 0 else if c = '[' then 1 else if c = '{' then 2 else if c = '-' ∨ c.isDigit = true then 3 else 4

theorem leadOf_num {c : Char} (h : c = '-' ∨ c.isDigit = true) : leadOf c = 3 := by
  unfold leadOf
  have h1 : c ≠ '"' := by rintro rfl; exact absurd h (by decide)
  have h2 : c ≠ '[' := by rintro rfl; exact absurd h (by decide)
  have h3 : c ≠ '{' := by rintro rfl; exact absurd h (by decide)
  rw [if_neg h1, if_neg h2, if_neg h3, if_pos h]

theorem print_head (c : Canon) (r : Str) : ∃ x l, c.print ++ r = x :: l ∧ leadOf x = c.lead := by
  cases c with
  | str s => exact ⟨_, _, by simp only [Canon.print, quote, List.cons_append]; rfl, by rfl⟩
  | num n => obtain ⟨x, l, h1, h2⟩ := printInt_head n r; exact ⟨x, l, by simpa only [Canon.print], leadOf_num h2⟩
  | arr l =>
    cases l with
    | nil => exact ⟨_, _, by simp only [Canon.print]; rfl, by rfl⟩
    | cons => exact ⟨_, _, by simp only [Canon.print, List.cons_append]; rfl, by rfl⟩
  | obj l =>
    cases l with
    | nil => exact ⟨_, _, by simp only [Canon.print]; rfl, by rfl⟩
    | cons x l => obtain ⟨k, c⟩ := x; exact ⟨_, _, by simp only [Canon.print, List.cons_append]; rfl, by rfl⟩

theorem print_lead {a b : Canon} {r r' : Str} (h : a.print ++ r = b.print ++ r') : a.lead = b.lead := by
  obtain ⟨x, l, h1, h2⟩ := print_head a r
  obtain ⟨y, l', h3, h4⟩ := print_head b r'
  rw [h1, h3] at h
  rw [← h2, ← h4, (List.cons.inj h).1]

theorem lead_lt (c : Canon) : c.lead < 4 := by cases c <;> simp [Canon.lead]

theorem rest_stops (cs : List Canon) (r : Str) : Stops (Canon.printRest cs ++ r) := by
  cases cs with
  | nil => exact .cons (by decide)
  | cons c cs => simp only [Canon.printRest, List.cons_append]; exact .cons (by decide)

theorem entries_stops (cs : List (Str × Canon)) (r : Str) : Stops (Canon.printEntries cs ++ r) := by
  cases cs with
  | nil => exact .cons (by decide)
  | cons c cs => obtain ⟨k, c⟩ := c; simp only [Canon.printEntries, List.cons_append]; exact .cons (by decide)

/-- A value is not the end of an array. -/
theorem print_not_rest {c : Canon} {r r' : Str} (h : c.print ++ r = ']' :: r') : False := by
  obtain ⟨x, l, h1, h2⟩ := print_head c r
  rw [h1] at h
  have := lead_lt c
  rw [← h2, (List.cons.inj h).1] at this
  exact absurd this (by decide)

mutual
theorem print_inj : ∀ (a b : Canon) {r r' : Str}, a.print ++ r = b.print ++ r' → Stops r → Stops r' → a = b ∧ r = r'
  | .str s, b, r, r', h, hr, hr' => by
    have hl := print_lead h
    cases b <;> first | (simp [Canon.lead] at hl; done) | skip
    simp only [Canon.print] at h
    obtain ⟨rfl, rfl⟩ := quote_inj h
    exact ⟨rfl, rfl⟩
  | .num n, b, r, r', h, hr, hr' => by
    have hl := print_lead h
    cases b <;> first | (simp [Canon.lead] at hl; done) | skip
    simp only [Canon.print] at h
    obtain ⟨rfl, rfl⟩ := printInt_inj h hr hr'
    exact ⟨rfl, rfl⟩
  | .arr [], b, r, r', h, hr, hr' => by
    have hl := print_lead h
    cases b <;> first | (simp [Canon.lead] at hl; done) | skip
    rename_i l
    cases l with
    | nil => simp only [Canon.print, List.append_cancel_left_eq] at h; exact ⟨rfl, h⟩
    | cons c cs =>
      simp only [Canon.print, List.cons_append, List.append_assoc] at h
      exact absurd (List.cons.inj h).2.symm fun h => print_not_rest h
  | .arr (a :: as), b, r, r', h, hr, hr' => by
    have ih1 := @print_inj a
    have ih2 := @printRest_inj as
    have hl := print_lead h
    cases b <;> first | (simp [Canon.lead] at hl; done) | skip
    rename_i l
    cases l with
    | nil =>
      simp only [Canon.print, List.cons_append, List.append_assoc] at h
      exact absurd (List.cons.inj h).2 fun h => print_not_rest h
    | cons c cs =>
      simp only [Canon.print, List.cons_append, List.append_assoc] at h
      obtain ⟨rfl, h2⟩ := ih1 c (List.cons.inj h).2 (rest_stops _ _) (rest_stops _ _)
      obtain ⟨rfl, rfl⟩ := ih2 cs h2 hr hr'
      exact ⟨rfl, rfl⟩
  | .obj [], b, r, r', h, hr, hr' => by
    have hl := print_lead h
    cases b <;> first | (simp [Canon.lead] at hl; done) | skip
    rename_i l
    cases l with
    | nil => simp only [Canon.print, List.append_cancel_left_eq] at h; exact ⟨rfl, h⟩
    | cons c cs =>
      obtain ⟨k, c⟩ := c
      simp only [Canon.print, quote, List.cons_append, List.append_assoc] at h
      exact absurd (List.cons.inj (List.cons.inj h).2).1 (by decide)
  | .obj ((k, a) :: as), b, r, r', h, hr, hr' => by
    have ih1 := @print_inj a
    have ih2 := @printEntries_inj as
    have hl := print_lead h
    cases b <;> first | (simp [Canon.lead] at hl; done) | skip
    rename_i l
    cases l with
    | nil =>
      simp only [Canon.print, quote, List.cons_append, List.append_assoc] at h
      exact absurd (List.cons.inj (List.cons.inj h).2).1 (by decide)
    | cons c cs =>
      obtain ⟨k', c⟩ := c
      simp only [Canon.print, List.cons_append, List.append_assoc] at h
      obtain ⟨rfl, h1⟩ := quote_inj (List.cons.inj h).2
      obtain ⟨rfl, h2⟩ := ih1 c (List.cons.inj h1).2 (entries_stops _ _) (entries_stops _ _)
      obtain ⟨rfl, rfl⟩ := ih2 cs h2 hr hr'
      exact ⟨rfl, rfl⟩
theorem printRest_inj : ∀ (as bs : List Canon) {r r' : Str}, Canon.printRest as ++ r = Canon.printRest bs ++ r' →
    Stops r → Stops r' → as = bs ∧ r = r'
  | [], [], r, r', h, _, _ => by simp only [Canon.printRest, List.append_cancel_left_eq] at h; exact ⟨rfl, h⟩
  | [], b :: bs, r, r', h, _, _ => by
    simp only [Canon.printRest, List.cons_append] at h
    exact absurd (List.cons.inj h).1 (by decide)
  | a :: as, [], r, r', h, _, _ => by
    simp only [Canon.printRest, List.cons_append] at h
    exact absurd (List.cons.inj h).1 (by decide)
  | a :: as, b :: bs, r, r', h, hr, hr' => by
    have ih1 := @print_inj a
    have ih2 := @printRest_inj as
    simp only [Canon.printRest, List.cons_append, List.append_assoc] at h
    obtain ⟨rfl, h2⟩ := ih1 b (List.cons.inj h).2 (rest_stops _ _) (rest_stops _ _)
    obtain ⟨rfl, rfl⟩ := ih2 bs h2 hr hr'
    exact ⟨rfl, rfl⟩
theorem printEntries_inj : ∀ (as bs : List (Str × Canon)) {r r' : Str},
    Canon.printEntries as ++ r = Canon.printEntries bs ++ r' → Stops r → Stops r' → as = bs ∧ r = r'
  | [], [], r, r', h, _, _ => by simp only [Canon.printEntries, List.append_cancel_left_eq] at h; exact ⟨rfl, h⟩
  | [], (k, b) :: bs, r, r', h, _, _ => by
    simp only [Canon.printEntries, List.cons_append] at h
    exact absurd (List.cons.inj h).1 (by decide)
  | (k, a) :: as, [], r, r', h, _, _ => by
    simp only [Canon.printEntries, List.cons_append] at h
    exact absurd (List.cons.inj h).1 (by decide)
  | (k, a) :: as, (k', b) :: bs, r, r', h, hr, hr' => by
    have ih1 := @print_inj a
    have ih2 := @printEntries_inj as
    simp only [Canon.printEntries, List.cons_append, List.append_assoc] at h
    obtain ⟨rfl, h1⟩ := quote_inj (List.cons.inj h).2
    obtain ⟨rfl, h2⟩ := ih1 b (List.cons.inj h1).2 (entries_stops _ _) (entries_stops _ _)
    obtain ⟨rfl, rfl⟩ := ih2 bs h2 hr hr'
    exact ⟨rfl, rfl⟩
end

theorem canon_print_inj {a b : Canon} (h : a.print = b.print) : a = b :=
  (print_inj a b (r := []) (r' := []) (by simpa using h) (by simp [Stops]) (by simp [Stops])).1

end Verif
