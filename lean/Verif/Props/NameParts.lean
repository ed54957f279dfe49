import Verif.Gen.FilesProof
import Verif.Gen.Command
/-
What the names of the flag `namespaced-names` consist of (C89).
-/
namespace Verif.Props
open Verif Spec
set_option linter.unusedVariables false

/-- With a capital. -/
def capital : Str → Str
  | [] => []
  | c :: cs => (if LowerLetter c then Char.ofNat (c.toNat - 32) else c) :: cs

/-- Letters and digits only. -/
def Simple (p : Str) : Prop := ∀ c ∈ p, Letter c ∨ Digit c

theorem simple_no_dot {p : Str} (h : Simple p) : '.' ∉ p := fun hm => by
  have := h _ hm; revert this; decide

theorem capital_eq (c : Char) (cs : Str) : capital (c :: cs) = upperAscii c :: cs := by
  show (if LowerLetter c then Char.ofNat (c.toNat - 32) else c) :: cs = _
  unfold upperAscii
  by_cases h : LowerLetter c
  · rw [if_pos h, if_pos (by simpa [LowerLetter] using h)]
  · rw [if_neg h, if_neg (by simpa [LowerLetter] using h)]

theorem titleFrom_append_space : ∀ (p : Str) (prev : Char) (x : Str), isSeparator prev = false → Simple p →
    titleFrom prev (p ++ ' ' :: x) = p ++ ' ' :: titleFrom ' ' x
  | [], prev, x, hs, _ => by simp [titleFrom, hs]
  | c :: cs, prev, x, hs, h => by
    have hc : isSeparator c = false := (isSeparator_iff _).2 (by
      rcases h c (by simp) with h | h
      · exact .inl h
      · exact .inr (.inl h))
    simp only [List.cons_append, titleFrom, hs]
    rw [titleFrom_append_space cs c x hc (fun y hy => h y (by simp [hy]))]; simp

theorem titleFrom_part (p x : Str) (h : Simple p) : titleFrom ' ' (p ++ ' ' :: x) = capital p ++ ' ' :: titleFrom ' ' x := by
  cases p with
  | nil =>
    have : upperAscii ' ' = ' ' := by decide
    simp [titleFrom, capital, this]
  | cons c cs =>
    have hc : isSeparator c = false := (isSeparator_iff _).2 (by
      rcases h c (by simp) with h | h
      · exact .inl h
      · exact .inr (.inl h))
    have hsp : isSeparator ' ' = true := by decide
    rw [capital_eq, List.cons_append, titleFrom, hsp, if_pos rfl,
      titleFrom_append_space cs c x hc (fun y hy => h y (by simp [hy]))]
    rfl

theorem simple_keeps {p : Str} (h : Simple p) : (capital p).filter (· ≠ ' ') = capital p := by
  rw [List.filter_eq_self]
  cases p with
  | nil => intro a ha; cases ha
  | cons c cs =>
    rw [capital_eq]
    intro a ha
    have : Letter a ∨ Digit a := by
      rcases List.mem_cons.1 ha with rfl | ha
      · rcases h c (by simp) with h | h
        · exact .inl (.inl (upper_letter h))
        · right
          rw [digit_iff] at h ⊢
          rw [upperAscii_toNat, if_neg (by rw [lower_iff]; omega)]; exact h
      · exact h a (by simp [ha])
    simp only [ne_eq, decide_eq_true_eq, decide_not, Bool.not_eq_eq_eq_not, Bool.not_true, decide_eq_false_iff_not]
    rintro rfl
    revert this; decide

theorem spaceRuns_part : ∀ (p r : Str) (b : Bool), Simple p → p ≠ [] → spaceRuns b (p ++ '.' :: r) = p ++ ' ' :: spaceRuns true r
  | [], _, _, _, h => absurd rfl h
  | [c], r, b, h, _ => by
    have := valid_char (h c (by simp))
    have hd : isInvalidToken '.' = true := by decide
    simp [spaceRuns, this, hd]
  | c :: d :: cs, r, b, h, _ => by
    have := valid_char (h c (by simp))
    have ih := spaceRuns_part (d :: cs) r false (fun y hy => h y (by simp only [List.mem_cons] at hy ⊢; exact .inr hy)) (by simp)
    rw [List.cons_append, spaceRuns, this]
    simp only [Bool.false_eq_true, if_false]
    rw [ih]; rfl

theorem parts_name : ∀ (ps : List Str) (b : Bool), (∀ p ∈ ps, Simple p) →
    (titleFrom ' ' (spaceRuns b (joinDots ps))).filter (· ≠ ' ') = (ps.map capital).flatten
  | [], b, _ => rfl
  | [p], b, h => by
    have hp := h p (by simp)
    show (titleFrom ' ' (spaceRuns b p)).filter (· ≠ ' ') = (([p] : List Str).map capital).flatten
    rw [spaceRuns_id p b hp]
    have e : titleFrom ' ' p = capital p := by
      cases p with
      | nil => rfl
      | cons c cs =>
        rw [capital_eq]
        exact title_cons (fun x hx => by
          rcases hp x hx with h | h
          · exact .inl h
          · exact .inr (.inl h))
    rw [e, simple_keeps hp]; simp
  | p :: q :: ps, b, h => by
    have hp := h p (by simp)
    have ih := parts_name (q :: ps) true (fun x hx => h x (by simp only [List.mem_cons] at hx ⊢; exact .inr hx))
    rw [show joinDots (p :: q :: ps) = p ++ '.' :: joinDots (q :: ps) from rfl]
    rw [List.map_cons, List.flatten_cons, ← ih]
    by_cases hn : p = []
    · subst hn
      have hd : isInvalidToken '.' = true := by decide
      rw [List.nil_append, spaceRuns, hd]
      cases b with
      | true => rfl
      | false =>
        have : upperAscii ' ' = ' ' := by decide
        simp [titleFrom, capital, this]
    · rw [spaceRuns_part p _ b hp hn, titleFrom_part p _ hp, List.filter_append, simple_keeps hp]
      simp

/-- The parts of a name, with dots between them. -/
theorem joinDots_intercalate : ∀ ps : List Str, joinDots ps = ['.'].intercalate ps
  | [] => rfl
  | [p] => by simp [joinDots, List.intercalate]
  | p :: q :: ps => by
    rw [joinDots, joinDots_intercalate (q :: ps)]
    simp [List.intercalate]

theorem splitDots_join : ∀ (ps : List Str), ps ≠ [] → (∀ p ∈ ps, '.' ∉ p) → splitDots (joinDots ps) = ps
  | [], h, _ => absurd rfl h
  | [p], _, h => splitDots_plain (h p (by simp))
  | p :: q :: ps, _, h => by
    rw [joinDots, splitDots_dot (h p (by simp)), splitDots_join (q :: ps) (by simp)
      (fun x hx => h x (by simp only [List.mem_cons] at hx ⊢; exact .inr hx))]

/-- C89. With `-namespaced-names full` the Go name of `a.b.c` is `ABC`: all parts of the full name, with
capitals. -/
theorem full_name_parts (ps : List Str) (h : ∀ p ∈ ps, Simple p) :
    (Namer.namespaced false).publicName (['.'].intercalate ps) = (ps.map capital).flatten := by
  rw [← joinDots_intercalate]
  exact parts_name ps false h

/-- With `-namespaced-names short` it is made of the last part of the namespace and the name. -/
theorem short_name_parts (ps : List Str) (p q : Str) (hps : ∀ x ∈ ps, '.' ∉ x) (hp : Simple p) (hq : Simple q) :
    (Namer.namespaced true).publicName (['.'].intercalate (ps ++ [p, q])) = capital p ++ capital q := by
  rw [← joinDots_intercalate]
  have hs : splitDots (joinDots (ps ++ [p, q])) = ps ++ [p, q] := splitDots_join _ (by simp) (by
    intro x hx
    simp only [List.mem_append, List.mem_cons, List.not_mem_nil, or_false] at hx
    rcases hx with hx | rfl | rfl
    · exact hps x hx
    · exact simple_no_dot hp
    · exact simple_no_dot hq)
  have hl : lastTwo (joinDots (ps ++ [p, q])) = joinDots [p, q] := by
    unfold lastTwo
    rw [hs]
    cases ps with
    | nil => rfl
    | cons r rs =>
      rw [if_pos (by simp)]
      congr 1
      rw [List.drop_append_of_le_length (by simp)]
      rw [List.drop_eq_nil_of_le (by simp)]; rfl
  show (title (spaceRuns false (lastTwo _))).filter (· ≠ ' ') = _
  rw [hl]
  have := parts_name [p, q] false (by
    intro x hx
    simp only [List.mem_cons, List.not_mem_nil, or_false] at hx
    rcases hx with rfl | rfl
    · exact hp
    · exact hq)
  simpa [title] using this

/-- Without the flag it is the name alone. -/
theorem plain_name_parts (ps : List Str) (q : Str) (hq : Simple q) :
    Namer.simple.publicName (['.'].intercalate (ps ++ [q])) = capital q := by
  have e : afterLastDot (['.'].intercalate (ps ++ [q])) = q := by
    rw [← joinDots_intercalate]
    induction ps with
    | nil => exact afterLastDot_plain (simple_no_dot hq)
    | cons p ps ih =>
      cases ps with
      | nil => exact afterLastDot_dot _ (simple_no_dot hq)
      | cons r rs =>
        rw [List.cons_append, List.cons_append, joinDots]
        obtain ⟨s, hs⟩ : ∃ s, joinDots (r :: (rs ++ [q])) = s ++ '.' :: q := by
          clear ih
          induction rs generalizing r with
          | nil => exact ⟨r, rfl⟩
          | cons u us ih =>
            obtain ⟨s, hs⟩ := ih u
            exact ⟨r ++ '.' :: s, by rw [List.cons_append, joinDots, hs]; simp⟩
        rw [hs, show p ++ '.' :: (s ++ '.' :: q) = (p ++ '.' :: s) ++ '.' :: q by simp]
        exact afterLastDot_dot _ (simple_no_dot hq)
  show title (trimUnderscore (afterLastDot _)) = _
  rw [e]
  have ht : trimUnderscore q = q := by
    unfold trimUnderscore
    have hu : '_' ∉ q := fun hm => by have := hq _ hm; revert this; decide
    have hd : ∀ s : Str, '_' ∉ s → s.dropWhile (· = '_') = s := by
      intro s hs
      cases s with
      | nil => rfl
      | cons c cs =>
        simp only [List.mem_cons, not_or] at hs
        rw [List.dropWhile_cons, if_neg (by simpa using Ne.symm hs.1)]
    rw [hd q hu, hd q.reverse (by simpa using hu), List.reverse_reverse]
  rw [ht]
  cases q with
  | nil => rfl
  | cons c cs =>
    rw [capital_eq]
    exact title_cons (fun x hx => by
      rcases hq x hx with h | h
      · exact .inl h
      · exact .inr (.inl h))

example : (Namer.namespaced false).publicName "com.shop.orders.lineItem".toList = "ComShopOrdersLineItem".toList ∧
    (Namer.namespaced true).publicName "com.shop.orders.lineItem".toList = "OrdersLineItem".toList ∧
    Namer.simple.publicName "com.shop.orders.lineItem".toList = "LineItem".toList := by decide +kernel

example : Simple "lineItem".toList := by
  intro c hc
  simp only [String.toList] at hc
  revert c
  decide +kernel

/-- The values of the flag: `full`, `short` and `none`, in letters of either case, select what C89 says; others are
refused. -/
theorem flag_names (s : Str) :
    (s.map lowerAscii = "full".toList → ∃ nm, namerOf s = some nm ∧ ∀ ps : List Str, (∀ p ∈ ps, Simple p) →
      nm.publicName (['.'].intercalate ps) = (ps.map capital).flatten) ∧
    (s.map lowerAscii = "short".toList → ∃ nm, namerOf s = some nm ∧ ∀ (ps : List Str) (p q : Str), (∀ x ∈ ps, '.' ∉ x) →
      Simple p → Simple q → nm.publicName (['.'].intercalate (ps ++ [p, q])) = capital p ++ capital q) ∧
    (s.map lowerAscii = "none".toList → ∃ nm, namerOf s = some nm ∧ ∀ (ps : List Str) (q : Str), Simple q →
      nm.publicName (['.'].intercalate (ps ++ [q])) = capital q) ∧
    (s.map lowerAscii ∉ ["full".toList, "short".toList, "none".toList] → namerOf s = none) := by
  have e1 : "full".toList ≠ "none".toList := by decide
  have e2 : "full".toList ≠ "short".toList := by decide
  have e3 : "short".toList ≠ "none".toList := by decide
  unfold namerOf
  refine ⟨fun h => ?_, fun h => ?_, fun h => ?_, fun h => ?_⟩
  · rw [h, if_neg e1, if_neg e2, if_pos rfl]; exact ⟨_, rfl, full_name_parts⟩
  · rw [h, if_neg e3, if_pos rfl]; exact ⟨_, rfl, short_name_parts⟩
  · rw [h, if_pos rfl]; exact ⟨_, rfl, plain_name_parts⟩
  · simp only [List.mem_cons, List.not_mem_nil, or_false, not_or] at h
    rw [if_neg h.2.2, if_neg h.2.1, if_neg h.1]

example : namerOf "Short".toList = some (.namespaced true) := rfl

end Verif.Props
