import Verif.Gen.FileWalkAll
import Verif.Gen.FileText
import Verif.Gen.EntryText
import Verif.Gen.JsonCodeText
import Verif.Gen.MethodsToks
import Verif.Go.LexAppend
/-
The parts of a generated file one after the other: each is one or more declarations.
-/
set_option autoImplicit false
namespace Verif
open Spec Spec.Go

/-! ### Lines -/

theorem line_of {s : Str} (h : s.getLast? = some '\n') : Line s := by
  cases hs : s.reverse with
  | nil => rw [List.reverse_eq_nil_iff] at hs; subst hs; cases h
  | cons c t =>
    have e : s = t.reverse ++ [c] := by rw [← List.reverse_reverse s, hs, List.reverse_cons]
    subst e
    rw [List.getLast?_concat, Option.some.injEq] at h
    exact ⟨t.reverse, by rw [h]⟩

theorem line_cons {s : Str} {l : List Str} (h : Line (cat l)) : Line (cat (s :: l)) := line_append h
theorem line_end {s : Str} (h : Line s) : Line (cat [s]) := by rw [cat, cat, List.append_nil]; exact h
theorem line_tail {c : Char} {s : Str} (h : Line s) : Line (c :: s) := line_append (s := [c]) h

/-- The text ends in a constant with a line end. -/
macro "ends" : tactic => `(tactic| repeat' (first | exact line_of (by decide +kernel) | apply line_end | apply line_cons | apply line_append | apply line_tail | split))

/-! ### Parts of a file -/

/-- A text of declarations that ends a line, whatever follows, and the names they declare. -/
def Part (s : Str) (ns : List Str) : Prop := ∃ us, (∀ r vs, tokens r = some vs → tokens (s ++ r) = some (us ++ vs)) ∧ Declares us ns

theorem part_tokens {s : Str} {us : List Tok} {ns : List Str} (h : tokens s = some us) (hl : Line s) (hn : Declares us ns) : Part s ns :=
  ⟨us, fun _ _ hr => tokens_cat h hl hr, hn⟩

theorem part_empty : Part [] [] := ⟨[], fun _ _ h => h, names_nil⟩

/-- The parts of a file, and what each declares. -/
inductive Parts : List Str → List (List Str) → Prop
  | nil : Parts [] []
  | cons {s : Str} {n : List Str} {ss : List Str} {ns : List (List Str)} : Part s n → Parts ss ns → Parts (s :: ss) (n :: ns)

theorem part_file {ss : List Str} {ns : List (List Str)} (h : Parts ss ns) : ∃ us, tokens (cat ss) = some us ∧ topNames us = ns.flatten := by
  have : ∃ us, tokens (cat ss) = some us ∧ Declares us ns.flatten := by
    induction h with
    | nil => exact ⟨[], rfl, names_nil⟩
    | @cons s n ss ns h1 _ ih =>
      obtain ⟨us, h2, h3⟩ := h1
      obtain ⟨vs, h4, h5⟩ := ih
      exact ⟨us ++ vs, h2 _ _ h4, names_append h3 h5⟩
  obtain ⟨us, h1, h2⟩ := this
  exact ⟨us, h1, names_top h2⟩

theorem texts_parts : ∀ {ss : List Str} {ms : List Spec.GoT.Method}, TextsOf ss ms → (∀ s ∈ ss, Line s) → Parts ss (ss.map fun _ => [])
  | [], [], _, _ => .nil
  | s :: ss, m :: ms, h, hl => .cons (part_tokens h.1 (hl s (by simp)) (method_names m)) (texts_parts h.2 fun s hs => hl s (by simp [hs]))
  | [], _ :: _, h, _ => h.elim
  | _ :: _, [], h, _ => h.elim

theorem flatten_none {α β : Type} : ∀ (l : List α), (l.map fun _ => ([] : List β)).flatten = []
  | [] => rfl
  | _ :: l => by rw [List.map_cons, List.flatten_cons, flatten_none l]; rfl

/-! ### Statements for defaults -/

/-- A property of statements that does not depend on the place. -/
structure Placeless (p : Spec.GoD.St → Prop) : Prop where
  under : ∀ seg s, p s → p (s.under seg)
  new : ∀ l e, p (.assign l (.new e))

theorem all_under {p : Spec.GoD.St → Prop} (hp : Placeless p) {L : Sts} {seg : Spec.GoD.Seg} (h : ∀ s ∈ L, p s) : ∀ s ∈ L.map (.under seg), p s := by
  intro s hs
  obtain ⟨x, hx, rfl⟩ := List.mem_map.1 hs
  exact hp.under _ _ (h x hx)

theorem all_ctor {p : Spec.GoD.St → Prop} (hp : Placeless p) (nm : Namer) (n : NS) (t : PTy) : ∀ s ∈ ctorSts nm n t, p s := by
  intro s hs
  unfold ctorSts at hs
  split at hs
  · cases hs
  · rw [List.mem_singleton.1 hs]; exact hp.new _ _

theorem all_append {α : Type} {p : α → Prop} {L M : List α} (h : ∀ s ∈ L, p s) (h' : ∀ s ∈ M, p s) : ∀ s ∈ L ++ M, p s :=
  fun s hs => (List.mem_append.1 hs).elim (h s) (h' s)

theorem all_new {p : Spec.GoD.St → Prop} (hp : Placeless p) {nm : Namer} {n : NS} {k : Nat} : ∀ {fs : List PField} {L : Sts},
    (∀ f ∈ fs, ∀ L, dfltSts nm n k f = .ok L → ∀ s ∈ L, p s) → newSts nm n k fs = .ok L → ∀ s ∈ L, p s
  | [], L, _, h => by cases h; intro s hs; cases hs
  | f :: fs, L, hd, h => by
    simp only [newSts, freshSts] at h
    cases h1 : dfltSts nm n k f with
    | error e => rw [h1] at h; cases h
    | ok l =>
      cases h2 : newSts nm n k fs with
      | error e => rw [h1, h2] at h; cases h
      | ok r =>
        rw [h1, h2] at h
        cases h
        refine all_append (all_under hp (all_append ?_ (hd f (by simp) l h1))) (all_new hp (fun f hf => hd f (by simp [hf])) h2)
        split
        · intro s hs; cases hs
        · exact all_ctor hp nm n f.ty

theorem all_cases {p : Spec.GoD.St → Prop} (hp : Placeless p) {nm : Namer} {n : NS} {k : Nat} : ∀ {fs : List PField} {i : Nat} {L : List (Nat × Sts)},
    (∀ f ∈ fs, ∀ L, dfltSts nm n k f = .ok L → ∀ s ∈ L, p s) → setCases nm n k i fs = .ok L → ∀ c ∈ L, ∀ s ∈ c.2, p s
  | [], _, L, _, h => by cases h; intro s hs; cases hs
  | f :: fs, i, L, hd, h => by
    simp only [setCases] at h
    cases h1 : dfltSts nm n k f with
    | error e => rw [h1] at h; cases h
    | ok l =>
      cases h2 : setCases nm n k (i + 1) fs with
      | error e => rw [h1, h2] at h; cases h
      | ok r =>
        rw [h1, h2] at h
        have hr := all_cases hp (fun f hf => hd f (by simp [hf])) h2
        have h : (if f.dflt.isSome then (i, l.map (.under (.field (fieldGoName nm f.name)))) :: r else r) = L := Except.ok.inj h
        intro c hc
        rw [← h] at hc
        split at hc
        · rcases List.mem_cons.1 hc with rfl | hc
          · exact all_under hp (hd f (by simp) l h1)
          · exact hr c hc
        · exact hr c hc

/-- The statements in one that reads a field. -/
def readSts : Spec.GoJ.USt → Sts
  | .field _ (.sets l) => l
  | _ => []

theorem all_reads {p : Spec.GoD.St → Prop} (hp : Placeless p) {nm : Namer} {n : NS} {k : Nat} : ∀ {fs : List PField} {L : List Spec.GoJ.USt},
    (∀ f ∈ fs, ∀ L, dfltSts nm n k f = .ok L → ∀ s ∈ L, p s) → fieldReads nm n k fs = .ok L → ∀ u ∈ L, ∀ s ∈ readSts u, p s
  | [], L, _, h => by cases h; intro s hs; cases hs
  | f :: fs, L, hd, h => by
    simp only [fieldReads] at h
    cases h1 : elseSts nm n k f with
    | error e => rw [h1] at h; cases h
    | ok l =>
      cases h2 : fieldReads nm n k fs with
      | error e => rw [h1, h2] at h; cases h
      | ok r =>
        rw [h1, h2] at h
        cases h
        have hr := all_reads hp (fun f hf => hd f (by simp [hf])) h2
        have hl : ∀ s ∈ readSts (.field (fieldGoName nm f.name) l), p s := by
          unfold elseSts at h1
          have hd := hd f (by simp)
          unfold dfltSts at hd
          cases hf : f.dflt with
          | none => rw [hf] at h1; cases h1; intro s hs; cases hs
          | some j =>
            rw [hf] at h1 hd
            simp only at h1 hd
            cases h3 : defaultSts nm n k j f.ty with
            | error e => rw [h3] at h1; cases h1
            | ok m =>
              rw [h3] at h1
              cases h1
              exact all_under hp (all_append (all_ctor hp nm n f.ty) (hd m h3))
        intro u hu
        simp only [List.mem_cons] at hu
        rcases hu with rfl | rfl | hu
        · intro s hs; cases hs
        · exact hl
        · exact hr u hu

theorem all_unmarshal {p : Spec.GoD.St → Prop} (hp : Placeless p) {nm : Namer} {n : NS} {k : Nat} {fs : List PField} {L : List Spec.GoJ.USt}
    (hd : ∀ f ∈ fs, ∀ L, dfltSts nm n k f = .ok L → ∀ s ∈ L, p s) (h : recordUnmarshal nm n k fs = .ok L) : ∀ u ∈ L, ∀ s ∈ readSts u, p s := by
  unfold recordUnmarshal at h
  cases h1 : fieldReads nm n k fs with
  | error e => rw [h1] at h; cases h
  | ok l =>
    rw [h1] at h
    cases h
    have hl := all_reads hp hd h1
    intro u hu
    simp only [List.mem_cons, List.mem_append, List.not_mem_nil, or_false] at hu
    rcases hu with rfl | rfl | hu | hu | rfl
    · intro s hs; cases hs
    · intro s hs; cases hs
    · split at hu
      · cases hu
      · rw [List.mem_singleton.1 hu]; intro s hs; cases hs
    · exact hl u hu
    · intro s hs; cases hs

theorem local_number : Placeless PlainNumber where
  under seg s h := by
    cases s with
    | copy l bs => trivial
    | assign l e => cases e <;> first | exact h | trivial
  new l e := trivial

theorem local_readable : Placeless Spec.GoD.St.Readable where
  under seg s h := by
    cases s with
    | copy l bs => trivial
    | assign l e => cases e <;> first | exact h | trivial
  new l e := trivial

theorem level_chunks : ∀ {s : Str}, (∀ c ∈ s, numChar c = true) → Level (chunks s)
  | [], _ => fun _ => rfl
  | c :: s, h => by
    have ih : Level (chunks s) := level_chunks fun c hc => h c (List.mem_cons_of_mem _ hc)
    intro d
    rw [chunks]
    split
    · split
      · rename_i x ts e; have := ih d; rw [e] at this; exact this
      · exact ih d
    · have hc := h c (by simp)
      rename_i hw
      have : (!opens c && !closes c && c != ';') = true := by
        simp only [numChar, Bool.or_eq_true, beq_iff_eq] at hc
        rcases hc with (((h | rfl) | rfl) | rfl) | rfl
        · exact absurd (digit_wordChar h) hw
        all_goals decide
      rw [walk_other d _ this]
      exact ih d

theorem item_numbers {nm : Namer} {n : NS} {t : PTy} {ap : Json → Made Sts} (hap : ∀ j L, ap j = .ok L → ∀ s ∈ L, PlainNumber s) : ∀ {js : List Json} {i : Nat} {L : Sts},
    itemSts (ctorSts nm n t) ap i js = .ok L → ∀ s ∈ L, PlainNumber s
  | [], _, L, h => by cases h; intro s hs; cases hs
  | j :: js, i, L, h => by
    simp only [itemSts] at h
    cases h1 : ap j with
    | error e => rw [h1] at h; cases h
    | ok l =>
      cases h2 : itemSts (ctorSts nm n t) ap (i + 1) js with
      | error e => rw [h1, h2] at h; cases h
      | ok r =>
        rw [h1, h2] at h
        cases h
        exact all_append (all_under local_number (all_append (all_ctor local_number nm n t) (hap j l h1))) (item_numbers hap h2)

theorem entry_numbers {ap : Json → Made Sts} (hap : ∀ j L, ap j = .ok L → ∀ s ∈ L, PlainNumber s) : ∀ {kvs : List (Str × Json)} {L : Sts},
    entrySts ap kvs = .ok L → ∀ s ∈ L, PlainNumber s
  | [], L, h => by cases h; intro s hs; cases hs
  | (k, j) :: js, L, h => by
    simp only [entrySts] at h
    cases h1 : ap j with
    | error e => rw [h1] at h; cases h
    | ok l =>
      cases h2 : entrySts ap js with
      | error e => rw [h1, h2] at h; cases h
      | ok r =>
        rw [h1, h2] at h
        cases h
        exact all_append (all_under local_number (hap j l h1)) (entry_numbers hap h2)

theorem field_numbers {nm : Namer} {fs : List PField} {ap : Json → PTy → Made Sts} (hap : ∀ j t L, ap j t = .ok L → ∀ s ∈ L, PlainNumber s) :
    ∀ {kvs : List (Str × Json)} {L : Sts}, fieldSts nm fs ap kvs = .ok L → ∀ s ∈ L, PlainNumber s
  | [], L, h => by cases h; intro s hs; cases hs
  | (k, j) :: js, L, h => by
    simp only [fieldSts] at h
    split at h
    · cases h
    · rename_i f _
      cases h1 : ap j f.ty with
      | error e => rw [h1] at h; cases h
      | ok l =>
        cases h2 : fieldSts nm fs ap js with
        | error e => rw [h1, h2] at h; cases h
        | ok r =>
          rw [h1, h2] at h
          cases h
          exact all_append (all_under local_number (hap j _ l h1)) (field_numbers hap h2)

theorem one_number {s : Spec.GoD.St} (h : PlainNumber s) {L : Sts} (e : Except.ok (ε := DefErr) [s] = .ok L) : ∀ s ∈ L, PlainNumber s := by
  cases e; intro x hx; rw [List.mem_singleton.1 hx]; exact h

theorem default_numbers (nm : Namer) (n : NS) : ∀ (k : Nat) (j : Json) (t : PTy) (L : Sts), defaultSts nm n k j t = .ok L → ∀ s ∈ L, PlainNumber s
  | 0, _, _, _, h => by cases h
  | k + 1, j, t, L, h => by
    have ih := default_numbers nm n k
    have num : ∀ {L : Sts}, (match j.number with
        | none => (Except.error DefErr.gen : Made Sts)
        | some (a, d) => .ok [.assign [] (.num (numberToks a d))]) = .ok L → ∀ s ∈ L, PlainNumber s := by
      intro L h
      split at h
      · cases h
      · rename_i a d _
        exact one_number (s := .assign [] (.num (numberToks a d))) (level_chunks (numStr_numberText a d).1) h
    cases t with
    | prim p d =>
      cases p with
      | null => cases h; intro s hs; cases hs
      | bool => simp only [defaultSts] at h; split at h <;> first | exact one_number (by trivial) h | cases h
      | bytes => simp only [defaultSts] at h; split at h <;> first | exact one_number (by trivial) h | cases h
      | string => simp only [defaultSts] at h; split at h <;> first | exact one_number (by trivial) h | cases h
      | _ => exact num h
    | array it d =>
      simp only [defaultSts] at h
      split at h
      · rename_i js
        cases h1 : itemSts (ctorSts nm n it) (fun j => defaultSts nm n k j it) 0 js with
        | error e => rw [h1] at h; cases h
        | ok l =>
          rw [h1] at h
          cases h
          intro s hs
          rcases List.mem_cons.1 hs with rfl | hs
          · trivial
          · exact item_numbers (fun j L => ih j it L) h1 s hs
      · cases h
    | map it d =>
      simp only [defaultSts] at h
      split at h
      · exact entry_numbers (fun j L => ih j it L) h
      · cases h
    | union name ts d =>
      cases ts with
      | nil => simp only [defaultSts] at h; cases h
      | cons u us =>
        simp only [defaultSts] at h
        split at h
        · exact one_number (by trivial) h
        · cases h1 : defaultSts nm n k j u with
          | error e => rw [h1] at h; cases h
          | ok l =>
            rw [h1] at h
            cases h
            intro s hs
            rcases List.mem_cons.1 hs with rfl | hs
            · trivial
            · exact all_under local_number (all_append (all_ctor local_number nm n u) (ih j u l h1)) s hs
    | ref q =>
      simp only [defaultSts] at h
      cases hq : n.find q with
      | none => rw [hq] at h; cases h
      | some d =>
        rw [hq] at h
        cases hk : d.kind with
        | enum a b c => simp only [hk] at h; split at h <;> first | exact one_number (by trivial) h | cases h
        | fixed a => simp only [hk] at h; split at h <;> first | exact one_number (by trivial) h | cases h
        | record fs doc =>
          simp only [hk] at h
          split at h
          · exact field_numbers (fun j t L => ih j t L) h
          · cases h

theorem dflt_numbers {nm : Namer} {n : NS} {k : Nat} {f : PField} {L : Sts} (h : dfltSts nm n k f = .ok L) : ∀ s ∈ L, PlainNumber s := by
  unfold dfltSts at h
  split at h
  · cases h; intro s hs; cases hs
  · exact default_numbers nm n k _ _ L h

end Verif
