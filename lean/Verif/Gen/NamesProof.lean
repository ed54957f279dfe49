import Verif.Gen.Names
import Verif.Spec.GoNames
/- Lemmas about the names of Verif.Gen.Names. -/
namespace Verif
open Spec
set_option linter.unusedSimpArgs false
set_option linter.unusedVariables false

theorem char_le (a b : Char) : a ≤ b ↔ a.toNat ≤ b.toNat := by
  rw [Char.le_def, UInt32.le_iff_toNat_le]; rfl

theorem upper_iff (c : Char) : UpperLetter c ↔ 65 ≤ c.toNat ∧ c.toNat ≤ 90 := by
  simp only [UpperLetter, char_le]; exact Iff.rfl
theorem lower_iff (c : Char) : LowerLetter c ↔ 97 ≤ c.toNat ∧ c.toNat ≤ 122 := by
  simp only [LowerLetter, char_le]; exact Iff.rfl
theorem digit_iff (c : Char) : Digit c ↔ 48 ≤ c.toNat ∧ c.toNat ≤ 57 := by
  simp only [Digit, char_le]; exact Iff.rfl
theorem char_eq_iff (c d : Char) : c = d ↔ c.toNat = d.toNat := by
  constructor
  · rintro rfl; rfl
  · intro h; exact Char.ext (UInt32.toNat_inj.1 h)

theorem isUpper_iff (c : Char) : isUpper c = true ↔ UpperLetter c := by simp [isUpper, UpperLetter]
theorem isLower_iff (c : Char) : isLower c = true ↔ LowerLetter c := by simp [isLower, LowerLetter]

theorem toNat_ofNat_small {n : Nat} (h : n < 0xd800) : (Char.ofNat n).toNat = n := by
  have : n.isValidChar := Or.inl h
  simp [Char.ofNat, this, Char.toNat, Char.ofNatAux]

theorem upperAscii_toNat (c : Char) : (upperAscii c).toNat = if LowerLetter c then c.toNat - 32 else c.toNat := by
  unfold upperAscii
  by_cases h : LowerLetter c
  · rw [if_pos h, if_pos (by simpa [LowerLetter] using h)]
    have := (lower_iff c).1 h
    exact toNat_ofNat_small (by omega)
  · rw [if_neg h, if_neg (by simpa [LowerLetter] using h)]

theorem lowerAscii_toNat (c : Char) : (lowerAscii c).toNat = if UpperLetter c then c.toNat + 32 else c.toNat := by
  unfold lowerAscii
  by_cases h : UpperLetter c
  · rw [if_pos h, if_pos ((isUpper_iff c).2 h)]
    have := (upper_iff c).1 h
    exact toNat_ofNat_small (by omega)
  · rw [if_neg h, if_neg (fun h' => h ((isUpper_iff c).1 h'))]

theorem upper_letter {c : Char} (h : Letter c) : UpperLetter (upperAscii c) := by
  rw [upper_iff, upperAscii_toNat]
  rcases h with h | h
  · have h' := (upper_iff c).1 h
    rw [if_neg (by rw [lower_iff]; omega)]; exact h'
  · have h' := (lower_iff c).1 h
    rw [if_pos h]; omega

theorem upper_nameChar {c : Char} (h : NameChar c) : NameChar (upperAscii c) := by
  by_cases hl : Letter c
  · exact .inl (.inl (upper_letter hl))
  · have : upperAscii c = c := by
      rw [char_eq_iff, upperAscii_toNat, if_neg (fun h' => hl (.inr h'))]
    rw [this]; exact h

theorem upper_eq {c : Char} (h : UpperLetter c) : upperAscii c = c := by
  rw [char_eq_iff, upperAscii_toNat, if_neg]
  rw [lower_iff]; rw [upper_iff] at h; omega

theorem upper_same {c d : Char} (h : upperAscii c = upperAscii d) : SameLetter c d := by
  rw [char_eq_iff, upperAscii_toNat, upperAscii_toNat] at h
  unfold SameLetter
  rw [char_eq_iff, upper_iff, upper_iff]
  have h1 := lower_iff c
  have h2 := lower_iff d
  by_cases h3 : LowerLetter c <;> by_cases h4 : LowerLetter d <;>
    simp only [h3, h4, if_true, if_false, true_iff, false_iff] at h h1 h2 <;> omega

theorem nameChar_iff (c : Char) : NameChar c ↔
    (65 ≤ c.toNat ∧ c.toNat ≤ 90) ∨ (97 ≤ c.toNat ∧ c.toNat ≤ 122) ∨ (48 ≤ c.toNat ∧ c.toNat ≤ 57) ∨ c.toNat = 95 := by
  unfold NameChar Letter
  rw [upper_iff, lower_iff, digit_iff, char_eq_iff]
  show _ ∨ _ ∨ c.toNat = 95 ↔ _
  omega

theorem letter_iff (c : Char) : Letter c ↔
    (65 ≤ c.toNat ∧ c.toNat ≤ 90) ∨ (97 ≤ c.toNat ∧ c.toNat ≤ 122) := by
  unfold Letter
  rw [upper_iff, lower_iff]

theorem isSeparator_iff (c : Char) : isSeparator c = false ↔ NameChar c := by
  unfold NameChar Letter UpperLetter LowerLetter Digit
  simp [isSeparator]
  grind

theorem nameChar_ne {c d : Char} (h : NameChar c) (hd : ¬ NameChar d) : c ≠ d := by
  rintro rfl; exact hd h

/-- `strings.Title` of a string of name characters after a separator: the first one is raised. -/
theorem title_names : ∀ (cs : Str), (∀ x ∈ cs, NameChar x) → ∀ p, NameChar p → titleFrom p cs = cs
  | [], _, _, _ => rfl
  | c :: cs, h, p, hp => by
    simp only [titleFrom, (isSeparator_iff p).2 hp]
    rw [title_names cs (fun x hx => h x (by simp [hx])) c (h c (by simp))]
    simp

theorem title_cons {c : Char} {cs : Str} (h : ∀ x ∈ c :: cs, NameChar x) : title (c :: cs) = upperAscii c :: cs := by
  simp only [title, titleFrom]
  rw [title_names cs (fun x hx => h x (by simp [hx])) c (h c (by simp))]
  simp [isSeparator]

theorem legal_chars {s : Str} (h : LegalName s) : ∀ x ∈ s, NameChar x := by
  cases s with
  | nil => intro x hx; simp at hx
  | cons c cs =>
    intro x hx
    simp only [List.mem_cons] at hx
    rcases hx with rfl | hx
    · rcases h.1 with h | h
      · exact .inl h
      · exact .inr (.inr h)
    · exact h.2 x hx

theorem dot_not_name : ¬ NameChar '.' := by decide

theorem no_dot {s : Str} (h : ∀ x ∈ s, NameChar x) : '.' ∉ s := fun h' => dot_not_name (h _ h')

theorem takeWhile_all (p : Char → Bool) : ∀ l : Str, (∀ x ∈ l, p x = true) → l.takeWhile p = l
  | [], _ => rfl
  | a :: l, h => by
    rw [List.takeWhile_cons_of_pos (h a (by simp)), takeWhile_all p l (fun x hx => h x (by simp [hx]))]

theorem takeWhile_mem (p : Char → Bool) (x : Char) : ∀ l : Str, x ∈ l.takeWhile p → p x = true
  | [], h => by simp at h
  | a :: l, h => by
    by_cases ha : p a
    · rw [List.takeWhile_cons_of_pos ha, List.mem_cons] at h
      rcases h with rfl | h
      · exact ha
      · exact takeWhile_mem p x l h
    · rw [List.takeWhile_cons_of_neg ha] at h; simp at h

theorem afterLastDot_plain {s : Str} (h : '.' ∉ s) : afterLastDot s = s := by
  unfold afterLastDot
  have : s.reverse.takeWhile (· ≠ '.') = s.reverse := takeWhile_all _ _ (by
    intro a ha
    simp only [List.mem_reverse] at ha
    simp only [decide_eq_true_eq, decide_not, Bool.not_eq_eq_eq_not, Bool.not_true, decide_eq_false_iff_not]
    rintro rfl; exact h ha)
  rw [this, List.reverse_reverse]

theorem afterLastDot_dot (ns : Str) {s : Str} (h : '.' ∉ s) : afterLastDot (ns ++ '.' :: s) = s := by
  unfold afterLastDot
  have : (ns ++ '.' :: s).reverse = s.reverse ++ '.' :: ns.reverse := by simp
  rw [this, List.takeWhile_append_of_pos]
  · simp
  · intro a ha
    simp only [List.mem_reverse] at ha
    simp only [decide_eq_true_eq]
    rintro rfl; exact h ha

theorem dropWhile_snoc (p : Char → Bool) {c : Char} (hc : p c = false) : ∀ xs : Str,
    (xs ++ [c]).dropWhile p = xs.dropWhile p ++ [c]
  | [] => by simp [hc]
  | x :: xs => by
    by_cases hx : p x
    · simp only [List.cons_append, List.dropWhile_cons_of_pos hx, dropWhile_snoc p hc xs]
    · simp only [List.cons_append, List.dropWhile_cons_of_neg hx]

/-- `strings.Trim` keeps the first character that is not an underscore. -/
theorem trim_keeps (u : Str) (hu : ∀ x ∈ u, x = '_') {c : Char} (hc : c ≠ '_') (cs : Str) :
    trimUnderscore (u ++ c :: cs) = c :: (cs.reverse.dropWhile (· = '_')).reverse := by
  unfold trimUnderscore
  have h1 : (u ++ c :: cs).dropWhile (· = '_') = c :: cs := by
    rw [List.dropWhile_append_of_pos (by intro a ha; simp [hu a ha])]
    rw [List.dropWhile_cons_of_neg (by simp [hc])]
  rw [h1, List.reverse_cons, dropWhile_snoc _ (by simp [hc])]
  simp

theorem mem_dropWhile {p : Char → Bool} {x : Char} {l : Str} (h : x ∈ l.dropWhile p) : x ∈ l :=
  (List.dropWhile_suffix p).subset h

theorem trim_last {c : Char} {cs : Str} (h : (c :: cs).getLast? ≠ some '_') (hc : c ≠ '_') : trimUnderscore (c :: cs) = c :: cs := by
  have := trim_keeps [] (by simp) hc cs
  rw [List.nil_append] at this
  rw [this]
  congr 1
  rcases List.eq_nil_or_concat cs with rfl | ⟨xs, x, rfl⟩
  · rfl
  · simp only [List.concat_eq_append] at h ⊢
    have hx : x ≠ '_' := by
      rintro rfl
      apply h
      rw [← List.cons_append, List.getLast?_append]; simp
    rw [List.reverse_append, List.reverse_singleton, List.singleton_append,
      List.dropWhile_cons_of_neg (by simp [hx])]
    simp

theorem letter_ne_underscore {c : Char} (h : Letter c) : c ≠ '_' := by
  rintro rfl; revert h; decide

/-- The simple namer on a legal name. -/
theorem toPublicName_legal {s : Str} (h : ∀ x ∈ s, NameChar x) (hl : LetterFirst s) : Exported (toPublicName s) := by
  obtain ⟨u, c, cs, rfl, hu, hc⟩ := hl
  unfold toPublicName
  rw [afterLastDot_plain (no_dot h), trim_keeps u hu (letter_ne_underscore hc)]
  have hcs : ∀ x ∈ (cs.reverse.dropWhile (· = '_')).reverse, NameChar x := by
    intro x hx
    simp only [List.mem_reverse] at hx
    have := mem_dropWhile hx
    simp only [List.mem_reverse] at this
    exact h x (by simp [this])
  rw [title_cons (by
    intro x hx
    simp only [List.mem_cons] at hx
    rcases hx with rfl | hx
    · exact .inl hc
    · exact hcs x hx)]
  exact ⟨upper_letter hc, hcs⟩

theorem proper_cases {s : Str} (h : Proper s) : ∃ c cs, s = c :: cs ∧ Letter c ∧ (∀ x ∈ cs, NameChar x) ∧ (c :: cs).getLast? ≠ some '_' := by
  cases s with
  | nil => exact h.1.elim
  | cons c cs =>
    refine ⟨c, cs, rfl, ?_, h.1.2, h.2.2⟩
    rcases h.1.1 with h1 | h1
    · exact h1
    · subst h1; exact absurd rfl h.2.1

theorem toPublicName_cons {c : Char} {cs : Str} (hc : Letter c) (hcs : ∀ x ∈ cs, NameChar x)
    (hl : (c :: cs).getLast? ≠ some '_') : toPublicName (c :: cs) = upperAscii c :: cs := by
  have h : ∀ x ∈ c :: cs, NameChar x := by
    intro x hx
    simp only [List.mem_cons] at hx
    rcases hx with rfl | hx
    · exact .inl hc
    · exact hcs x hx
  unfold toPublicName
  rw [afterLastDot_plain (no_dot h), trim_last hl (letter_ne_underscore hc), title_cons h]

/-! ### The namespaced namer -/

theorem titleFrom_mem : ∀ (s : Str) (p x : Char), x ∈ titleFrom p s → ∃ y ∈ s, x = y ∨ x = upperAscii y
  | [], p, x, h => by simp [titleFrom] at h
  | c :: cs, p, x, h => by
    simp only [titleFrom, List.mem_cons] at h
    rcases h with rfl | h
    · refine ⟨c, by simp, ?_⟩
      split <;> simp
    · obtain ⟨y, hy, h⟩ := titleFrom_mem cs c x h
      exact ⟨y, by simp [hy], h⟩

theorem spaceRuns_mem : ∀ (s : Str) (b : Bool) (x : Char), x ∈ spaceRuns b s → x = ' ' ∨ (x ∈ s ∧ isInvalidToken x = false)
  | [], b, x, h => by simp [spaceRuns] at h
  | c :: cs, b, x, h => by
    simp only [spaceRuns] at h
    have key : ∀ b', x ∈ spaceRuns b' cs → x = ' ' ∨ (x ∈ c :: cs ∧ isInvalidToken x = false) := by
      intro b' h
      rcases spaceRuns_mem cs b' x h with h | ⟨h1, h2⟩
      · exact .inl h
      · exact .inr ⟨by simp [h1], h2⟩
    by_cases hc : isInvalidToken c
    · rw [if_pos hc] at h
      cases b
      · simp only [Bool.false_eq_true, if_false, List.mem_cons] at h
        rcases h with h | h
        · exact .inl h
        · exact key _ h
      · exact key _ (by simpa using h)
    · rw [if_neg hc, List.mem_cons] at h
      rcases h with rfl | h
      · exact .inr ⟨by simp, by simpa using hc⟩
      · exact key _ h

theorem letter_valid {c : Char} (h : Letter c) : isInvalidToken c = false := by
  rw [letter_iff] at h
  simp only [isInvalidToken, Bool.or_eq_false_iff, beq_eq_false_iff_ne, ne_eq, char_eq_iff]
  refine ⟨⟨⟨⟨⟨⟨?_, ?_⟩, ?_⟩, ?_⟩, ?_⟩, ?_⟩, ?_⟩ <;> (intro h'; revert h; rw [h']; decide)

theorem spaceRuns_head (cs : Str) {c : Char} (hc : Letter c) : ∀ (u : Str) (hu : ∀ x ∈ u, x = '_') (b : Bool),
    ∃ v : Str, (∀ x ∈ v, x = ' ') ∧ spaceRuns b (u ++ c :: cs) = v ++ c :: spaceRuns false cs
  | [], _, b => ⟨[], by simp, by simp [spaceRuns, letter_valid hc]⟩
  | x :: u, hu, b => by
    obtain ⟨v, hv, h⟩ := spaceRuns_head cs hc u (fun y hy => hu y (by simp [hy])) true
    have hx := hu x (by simp)
    subst hx
    cases b
    · refine ⟨' ' :: v, by simpa using hv, ?_⟩
      simp only [List.cons_append, spaceRuns]
      rw [if_pos (by decide), h]; simp
    · refine ⟨v, hv, ?_⟩
      simp only [List.cons_append, spaceRuns]
      rw [if_pos (by decide), h]; simp

theorem titleFrom_head (cs : Str) (c : Char) : ∀ (v : Str) (hv : ∀ x ∈ v, x = ' '),
    titleFrom ' ' (v ++ c :: cs) = v ++ upperAscii c :: titleFrom c cs
  | [], _ => by simp [titleFrom, isSeparator]
  | x :: v, hv => by
    have hx := hv x (by simp)
    subst hx
    have ih := titleFrom_head cs c v (fun y hy => hv y (by simp [hy]))
    simp only [List.cons_append, titleFrom]
    rw [ih]
    simp [isSeparator, upperAscii]

theorem spaced_exported {s : Str} (h : ∀ x ∈ s, NameChar x ∨ x = '.') (hl : LetterFirst s) :
    Exported ((title (spaceRuns false s)).filter (· ≠ ' ')) := by
  obtain ⟨u, c, cs, rfl, hu, hc⟩ := hl
  obtain ⟨v, hv, h1⟩ := spaceRuns_head cs hc u hu false
  rw [h1, title, titleFrom_head _ _ v hv]
  have hf : v.filter (· ≠ ' ') = [] := by
    rw [List.filter_eq_nil_iff]; intro a ha; simp [hv a ha]
  have hne : upperAscii c ≠ ' ' := by
    have := (upper_iff _).1 (upper_letter hc)
    intro h'; rw [h'] at this; revert this; decide
  rw [List.filter_append, hf, List.nil_append, List.filter_cons_of_pos (by simpa using hne)]
  refine ⟨upper_letter hc, ?_⟩
  intro x hx
  simp only [List.mem_filter, decide_eq_true_eq] at hx
  obtain ⟨y, hy, hxy⟩ := titleFrom_mem _ _ _ hx.1
  have hyn : y = ' ' ∨ NameChar y := by
    rcases spaceRuns_mem _ _ _ hy with h2 | ⟨h2, h3⟩
    · exact .inl h2
    · rcases h y (by simp [h2]) with h4 | h4
      · exact .inr h4
      · subst h4; exact absurd h3 (by decide)
  rcases hyn with rfl | hyn
  · rcases hxy with rfl | rfl
    · exact absurd rfl hx.2
    · exact absurd (by decide) hx.2
  · rcases hxy with rfl | rfl
    · exact hyn
    · exact upper_nameChar hyn

/-! ### Dotted names -/

theorem splitDots_plain : ∀ {p : Str}, '.' ∉ p → splitDots p = [p]
  | [], _ => rfl
  | c :: cs, h => by
    simp only [List.mem_cons, not_or] at h
    simp only [splitDots, if_neg (fun h' : c = '.' => h.1 h'.symm), splitDots_plain h.2]

theorem splitDots_dot : ∀ {p : Str}, '.' ∉ p → ∀ s, splitDots (p ++ '.' :: s) = p :: splitDots s
  | [], _, s => by simp [splitDots]
  | c :: cs, h, s => by
    simp only [List.mem_cons, not_or] at h
    simp only [List.cons_append, splitDots, if_neg (fun h' : c = '.' => h.1 h'.symm), splitDots_dot h.2]

theorem dotted_parts {s : Str} (h : Dotted s) : splitDots s ≠ [] ∧ ∀ p ∈ splitDots s, LegalName p ∧ LetterFirst p := by
  induction h with
  | one h1 h2 => rw [splitDots_plain (no_dot (legal_chars h1))]; exact ⟨by simp, by simpa using ⟨h1, h2⟩⟩
  | cons h1 h2 _ ih =>
    rw [splitDots_dot (no_dot (legal_chars h1))]
    refine ⟨by simp, ?_⟩
    intro p hp
    simp only [List.mem_cons] at hp
    rcases hp with rfl | hp
    · exact ⟨h1, h2⟩
    · exact ih.2 p hp

theorem joinDots_dotted : ∀ (ps : List Str), ps ≠ [] → (∀ p ∈ ps, LegalName p ∧ LetterFirst p) → Dotted (joinDots ps)
  | [], h, _ => absurd rfl h
  | [p], _, h => .one (h p (by simp)).1 (h p (by simp)).2
  | p :: q :: ps, _, h => .cons (h p (by simp)).1 (h p (by simp)).2
      (joinDots_dotted (q :: ps) (by simp) (fun x hx => h x (by simp only [List.mem_cons] at hx ⊢; exact .inr hx)))

theorem lastTwo_dotted {s : Str} (h : Dotted s) : Dotted (lastTwo s) := by
  unfold lastTwo
  split
  · obtain ⟨h1, h2⟩ := dotted_parts h
    apply joinDots_dotted
    · intro h'
      have := congrArg List.length h'
      simp only [List.length_drop, List.length_nil] at this
      have : 0 < (splitDots s).length := List.length_pos_iff.2 h1
      omega
    · intro p hp
      exact h2 p (List.mem_of_mem_drop hp)
  · exact h

theorem dotted_chars {s : Str} (h : Dotted s) : ∀ x ∈ s, NameChar x ∨ x = '.' := by
  induction h with
  | one h1 _ => intro x hx; exact .inl (legal_chars h1 x hx)
  | cons h1 _ _ ih =>
    intro x hx
    simp only [List.mem_append, List.mem_cons] at hx
    rcases hx with hx | rfl | hx
    · exact .inl (legal_chars h1 x hx)
    · exact .inr rfl
    · exact ih x hx

theorem dotted_letterFirst {s : Str} (h : Dotted s) : LetterFirst s := by
  cases h with
  | one _ h => exact h
  | cons _ h _ =>
    obtain ⟨u, c, cs, rfl, h1, h2⟩ := h
    exact ⟨u, c, cs ++ _, by rw [List.append_assoc]; rfl, h1, h2⟩

theorem dotted_last {s : Str} (h : Dotted s) : LegalName (afterLastDot s) ∧ LetterFirst (afterLastDot s) := by
  have key : ∀ s, Dotted s → ∀ ns p, '.' ∉ p → s = ns ++ '.' :: p ∨ (s = p) → LegalName p ∧ LetterFirst p := by
    intro s h
    induction h with
    | one h1 h2 =>
      intro ns p hp hs
      rcases hs with hs | rfl
      · exact absurd (hs ▸ (by simp : '.' ∈ ns ++ '.' :: p)) (no_dot (legal_chars h1))
      · exact ⟨h1, h2⟩
    | @cons a s' h1 h2 h3 ih =>
      intro ns p hp hs
      rcases hs with hs | rfl
      · have e1 := splitDots_dot (no_dot (legal_chars h1)) s'
        rcases List.append_eq_append_iff.1 hs with ⟨m, rfl, e⟩ | ⟨m, rfl, e⟩
        · cases m with
          | nil =>
            simp only [List.nil_append, List.cons.injEq, true_and] at e
            exact ih [] p hp (.inr e)
          | cons c m =>
            simp only [List.cons_append, List.cons.injEq] at e
            exact ih m p hp (.inl e.2)
        · cases m with
          | nil =>
            simp only [List.nil_append, List.cons.injEq, true_and] at e
            exact ih [] p hp (.inr e.symm)
          | cons c m =>
            simp only [List.cons_append, List.cons.injEq] at e
            exact absurd (by simp [e.2]) hp
      · exact absurd (by simp) hp
  have hd : '.' ∉ afterLastDot s := by
    unfold afterLastDot
    intro h'
    simp only [List.mem_reverse] at h'
    have := takeWhile_mem _ _ _ h'
    simp at this
  by_cases hs : '.' ∈ s
  · obtain ⟨as, bs, e, h1⟩ := List.append_of_mem hs |> fun ⟨a, b, e⟩ => (⟨a, b, e, trivial⟩ : ∃ a b, s = a ++ '.' :: b ∧ True)
    have : ∃ ns p, '.' ∉ p ∧ s = ns ++ '.' :: p := by
      clear e h1 as bs hd key h
      induction s with
      | nil => simp at hs
      | cons c cs ih =>
        by_cases hc : '.' ∈ cs
        · obtain ⟨ns, p, h1, h2⟩ := ih hc
          exact ⟨c :: ns, p, h1, by simp [h2]⟩
        · simp only [List.mem_cons] at hs
          rcases hs with rfl | hs
          · exact ⟨[], cs, hc, rfl⟩
          · exact absurd hs hc
    obtain ⟨ns, p, h2, h3⟩ := this
    rw [h3, afterLastDot_dot ns h2]
    exact key s h ns p h2 (.inl h3)
  · rw [afterLastDot_plain hs]
    exact key s h [] s hs (.inr rfl)

theorem publicName_exported (nm : Namer) {s : Str} (h : Dotted s) : Exported (nm.publicName s) := by
  cases nm with
  | simple =>
    have h1 := dotted_last h
    have := toPublicName_legal (legal_chars h1.1) h1.2
    unfold toPublicName at this
    rw [afterLastDot_plain (no_dot (legal_chars h1.1))] at this
    exact this
  | namespaced short =>
    show Exported ((title (spaceRuns false (if short then lastTwo s else s))).filter (· ≠ ' '))
    have h' : Dotted (if short then lastTwo s else s) := by
      cases short
      · exact h
      · exact lastTwo_dotted h
    exact spaced_exported (dotted_chars h') (dotted_letterFirst h')

/-- Any string of name characters with a letter before any digit, not only a legal name. -/
theorem publicName_plain (nm : Namer) {s : Str} (h : ∀ x ∈ s, NameChar x) (hl : LetterFirst s) : Exported (nm.publicName s) := by
  cases nm with
  | simple => exact toPublicName_legal h hl
  | namespaced short =>
    show Exported ((title (spaceRuns false (if short then lastTwo s else s))).filter (· ≠ ' '))
    have e : (if short then lastTwo s else s) = s := by
      cases short
      · rfl
      · simp [lastTwo, splitDots_plain (no_dot h)]
    rw [e]
    exact spaced_exported (fun x hx => .inl (h x hx)) hl

end Verif
