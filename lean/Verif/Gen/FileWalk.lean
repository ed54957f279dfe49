import Verif.Spec.GoFile
import Verif.Spec.GoEntry
import Verif.Spec.GoJson
import Verif.Spec.MiniGo
/-
Brackets in the tokens of generated code: statements and expressions close all that they open, so the cuts of Spec/GoFile are between
declarations.
-/
set_option autoImplicit false
namespace Verif
open Spec.Go

/-- The number of open brackets behind the tokens; none if it falls below 0 or a semicolon stands outside of brackets. -/
def walk : Nat → List Tok → Option Nat
  | d, [] => some d
  | d, .sign c :: us =>
    if opens c then walk (d + 1) us
    else if closes c then (match d with
      | 0 => none
      | d + 1 => walk d us)
    else if c = ';' ∧ d = 0 then none
    else walk d us
  | d, .word _ :: us => walk d us
  | d, .text _ :: us => walk d us

theorem walk_append (us : List Tok) : ∀ (d : Nat) (vs : List Tok), walk d (us ++ vs) = (walk d us).bind fun e => walk e vs := by
  induction us with
  | nil => intro d vs; rfl
  | cons u us ih =>
    intro d vs
    cases u with
    | word x => exact ih d vs
    | text v => exact ih d vs
    | sign c =>
      simp only [List.cons_append, walk]
      split
      · exact ih _ _
      · split
        · cases d with
          | zero => rfl
          | succ d => exact ih _ _
        · split
          · rfl
          · exact ih _ _

theorem cut_walk (us : List Tok) : ∀ (d e : Nat) (acc rest : List Tok), walk d us = some e → cut d acc (us ++ rest) = cut e (acc ++ us) rest := by
  induction us with
  | nil => intro d e acc rest h; cases h; simp
  | cons u us ih =>
    intro d e acc rest h
    have tail : ∀ d' u', walk d' us = some e → cut d' (acc ++ [u']) (us ++ rest) = cut e (acc ++ u' :: us) rest := by
      intro d' u' h'; rw [ih d' e _ rest h']; simp
    cases u with
    | word x => exact tail d _ h
    | text v => exact tail d _ h
    | sign c =>
      simp only [walk] at h
      simp only [List.cons_append, cut]
      split
      · rename_i ho; rw [if_pos ho] at h; exact tail _ _ h
      · rename_i ho
        rw [if_neg ho] at h
        split
        · rename_i hc
          rw [if_pos hc] at h
          cases d with
          | zero => cases h
          | succ d => exact tail d _ h
        · rename_i hc
          rw [if_neg hc] at h
          split
          · rename_i hs; rw [if_pos hs] at h; cases h
          · rename_i hs; rw [if_neg hs] at h; exact tail d _ h

/-- The tokens are declarations, and these are the names that they declare. -/
def Declares (us : List Tok) (ns : List Str) : Prop := ∀ rest, topNames (us ++ rest) = ns ++ topNames rest

theorem names_nil : Declares [] [] := fun _ => rfl

theorem names_append {us vs : List Tok} {ns ms : List Str} (h : Declares us ns) (h' : Declares vs ms) : Declares (us ++ vs) (ns ++ ms) := by
  intro rest
  rw [List.append_assoc, h, h', List.append_assoc]

theorem names_top {us : List Tok} {ns : List Str} (h : Declares us ns) : topNames us = ns := by
  have := h []
  simpa [topNames, cut] using this

/-- One declaration. -/
theorem names_one {us : List Tok} {ns : List Str} (h : walk 0 us = some 0) (hd : declared (us ++ [.sign ';']) = ns) : Declares (us ++ [.sign ';']) ns := by
  intro rest
  unfold topNames
  rw [List.append_assoc, cut_walk us 0 0 [] _ h, List.nil_append, List.cons_append, List.nil_append, cut, if_neg (by decide), if_neg (by decide),
    if_pos ⟨rfl, rfl⟩, List.flatMap_cons, hd]

/-- The tokens are one declaration. -/
def One (us : List Tok) : Prop := ∃ b, us = b ++ [.sign ';'] ∧ walk 0 b = some 0

theorem one_of {us : List Tok} (h : walk 0 us = some 0) : One (us ++ [.sign ';']) := ⟨us, rfl, h⟩

theorem one_cut {us : List Tok} (h : One us) (rest : List Tok) : cut 0 [] (us ++ rest) = us :: cut 0 [] rest := by
  obtain ⟨b, rfl, h⟩ := h
  rw [List.append_assoc, cut_walk b 0 0 [] _ h, List.nil_append, List.cons_append, List.nil_append, cut, if_neg (by decide), if_neg (by decide), if_pos ⟨rfl, rfl⟩]

theorem names_of {us : List Tok} {ns : List Str} (h : One us) (hd : declared us = ns) : Declares us ns := by
  obtain ⟨b, rfl, h⟩ := h
  exact names_one h hd

theorem walk_word (d : Nat) (x : Str) (us : List Tok) : walk d (.word x :: us) = walk d us := Eq.trans rfl rfl
theorem walk_w (d : Nat) (x : String) (us : List Tok) : walk d (w x :: us) = walk d us := Eq.trans rfl rfl
theorem walk_number (d n : Nat) (us : List Tok) : walk d (number n :: us) = walk d us := Eq.trans rfl rfl
theorem walk_text (d : Nat) (x : List Byte) (us : List Tok) : walk d (.text x :: us) = walk d us := Eq.trans rfl rfl
theorem walk_nil (d : Nat) : walk d [] = some d := Eq.trans rfl rfl
theorem walk_open (d : Nat) {c : Char} (us : List Tok) (h : opens c = true) : walk d (.sign c :: us) = walk (d + 1) us := by simp [walk, h]
theorem walk_p (d : Nat) (us : List Tok) : walk d (.sign '(' :: us) = walk (d + 1) us := Eq.trans rfl rfl
theorem walk_b (d : Nat) (us : List Tok) : walk d (.sign '[' :: us) = walk (d + 1) us := Eq.trans rfl rfl
theorem walk_c (d : Nat) (us : List Tok) : walk d (.sign '{' :: us) = walk (d + 1) us := Eq.trans rfl rfl
theorem walk_p' (d : Nat) (us : List Tok) : walk (d + 1) (.sign ')' :: us) = walk d us := Eq.trans rfl rfl
theorem walk_b' (d : Nat) (us : List Tok) : walk (d + 1) (.sign ']' :: us) = walk d us := Eq.trans rfl rfl
theorem walk_c' (d : Nat) (us : List Tok) : walk (d + 1) (.sign '}' :: us) = walk d us := Eq.trans rfl rfl
theorem walk_semi (d : Nat) (us : List Tok) : walk (d + 1) (.sign ';' :: us) = walk (d + 1) us := by
  show (if _ then _ else if _ then _ else if _ then _ else _) = _
  rw [if_neg (by decide), if_neg (by decide), if_neg (by simp)]
theorem walk_other (d : Nat) {c : Char} (us : List Tok) (h : (!opens c && !closes c && c != ';') = true) : walk d (.sign c :: us) = walk d us := by
  simp only [Bool.and_eq_true, Bool.not_eq_true', bne_iff_ne, ne_eq] at h
  show (if _ then _ else if _ then _ else if _ then _ else _) = _
  rw [if_neg (by simp [h.1.1]), if_neg (by simp [h.1.2]), if_neg (by simp [h.2])]

/-- Closes what it opens and has no semicolon outside of brackets. -/
def Level (us : List Tok) : Prop := ∀ d, walk d us = some d
/-- The same within brackets. -/
def Enclosed (us : List Tok) : Prop := ∀ d, walk (d + 1) us = some (d + 1)

theorem Level.inner {us : List Tok} (h : Level us) : Enclosed us := fun d => h (d + 1)

theorem level_append {us vs : List Tok} (h : Level us) (h' : Level vs) : Level (us ++ vs) := by
  intro d; rw [walk_append, h d]; exact h' d

theorem within_append {us vs : List Tok} (h : Enclosed us) (h' : Enclosed vs) : Enclosed (us ++ vs) := by
  intro d; rw [walk_append, h d]; exact h' d

theorem within_flatMap {α : Type} {f : α → List Tok} : ∀ {l : List α}, (∀ a ∈ l, Enclosed (f a)) → Enclosed (l.flatMap f)
  | [], _ => fun _ => rfl
  | a :: l, h => by
    rw [List.flatMap_cons]
    exact within_append (h a (by simp)) (within_flatMap fun b hb => h b (by simp [hb]))

theorem level_flatMap {α : Type} {f : α → List Tok} : ∀ {l : List α}, (∀ a ∈ l, Level (f a)) → Level (l.flatMap f)
  | [], _ => fun _ => rfl
  | a :: l, h => by
    rw [List.flatMap_cons]
    exact level_append (h a (by simp)) (level_flatMap fun b hb => h b (by simp [hb]))

theorem walk_flat (d : Nat) {us vs : List Tok} (h : Level us) : walk d (us ++ vs) = walk d vs := by rw [walk_append, h d]; rfl
theorem walk_inner (d : Nat) {us vs : List Tok} (h : Enclosed us) : walk (d + 1) (us ++ vs) = walk (d + 1) vs := by rw [walk_append, h d]; rfl

/-- Count brackets. -/
macro "brackets" "[" ls:Lean.Parser.Tactic.simpLemma,* "]" : tactic =>
  `(tactic| simp (discharger := first | assumption | decide) only [List.cons_append, List.nil_append, List.append_assoc, walk_word, walk_w, walk_number, walk_text, walk_nil,
    walk_p, walk_b, walk_c, walk_p', walk_b', walk_c', walk_semi, walk_other, walk_append, Option.bind_some, $ls,*])

theorem level_ty : ∀ (t : GoTy), Level t.toks
  | .named s => fun d => by brackets [GoTy.toks]
  | .of p s => fun d => by brackets [GoTy.toks]
  | .pointer t => fun d => by have := level_ty t d; brackets [GoTy.toks, this]
  | .slice t => fun d => by have := level_ty t d; brackets [GoTy.toks, this]
  | .dict t => fun d => by have := level_ty t d; brackets [GoTy.toks, this]

end Verif
