import Verif.Gen.DefaultText
import Verif.Gen.MethodsToks
/-
The texts of Gen/DefaultText are those of the statements of Gen/DefaultCode.
-/
namespace Verif
open Spec Spec.Go Spec.GoD
set_option linter.unusedSimpArgs false
set_option maxRecDepth 4000

/-! ### Numbers -/

theorem last_append {s t : Str} (h : t ≠ []) : (s ++ t).getLast? = t.getLast? := by
  rw [List.getLast?_append, List.getLast?_eq_some_getLast h]; rfl

/-- The characters of decimal constants. -/
def numChar (c : Char) : Bool := c.isDigit || c == 'e' || c == '.' || c == '+' || c == '-'

theorem digit_wordChar {c : Char} (h : c.isDigit = true) : wordChar c = true := by
  simp only [Char.isDigit, Bool.and_eq_true, decide_eq_true_eq] at h
  exact (wordChar_iff c).2 (.inr (.inl h))

theorem numChar_word {c : Char} (h : numChar c = true) (hw : wordChar c = true) : c.isDigit = true ∨ c = 'e' := by
  simp only [numChar, Bool.or_eq_true, beq_iff_eq] at h
  rcases h with (((h | h) | rfl) | rfl) | rfl
  · exact .inl h
  · exact .inr h
  · exact absurd hw (by decide)
  · exact absurd hw (by decide)
  · exact absurd hw (by decide)

theorem numChar_sign {c : Char} (h : numChar c = true) (hw : ¬ wordChar c = true) : c ∈ signs := by
  simp only [numChar, Bool.or_eq_true, beq_iff_eq] at h
  rcases h with (((h | rfl) | rfl) | rfl) | rfl
  · exact absurd (digit_wordChar h) hw
  · exact absurd (by decide) hw
  · decide +kernel
  · decide +kernel
  · decide +kernel

theorem numChar_clean {c : Char} (h : numChar c = true) : forbidden c = false := by
  by_cases hw : wordChar c = true
  · exact forbidden_name (.inl ((wordChar_iff c).1 hw))
  · have := numChar_sign h hw
    revert this
    generalize hs : signs = l
    have key : ∀ c ∈ signs, forbidden c = false := by decide +kernel
    rw [hs] at key
    exact key c

theorem num_ends {x : Str} (h : ∀ c ∈ x, c.isDigit = true ∨ c = 'e') : Tok.ends (.word x) = true := by
  have key : ∀ k ∈ openKeywords, ∃ c ∈ k, ¬ (c.isDigit = true ∨ c = 'e') := by decide +kernel
  show (!openKeywords.contains x) = true
  rw [Bool.not_eq_true']
  cases hc : openKeywords.contains x with
  | false => rfl
  | true =>
    obtain ⟨c, h1, h2⟩ := key x (by simpa using hc)
    exact (h2 (h c h1)).elim

/-- A word at the front. -/
theorem chunks_word {x r : Str} (hn : x ≠ []) (hx : ∀ c ∈ x, wordChar c = true) (hr : ∀ c t, r = c :: t → wordChar c = false) :
    chunks (x ++ r) = .word x :: chunks r := by
  induction x with
  | nil => exact (hn rfl).elim
  | cons c x ih =>
    rw [List.cons_append, chunks, if_pos (hx c (by simp))]
    by_cases h : x = []
    · subst h
      rw [List.nil_append]
      cases r with
      | nil => rfl
      | cons d t => rw [chunks, if_neg (by rw [hr d t rfl]; decide)]
    · rw [ih h fun c hc => hx c (by simp [hc])]

theorem toks_chunks (k : Nat) : ∀ {s r : Str} {b : Bool} {ts : List Tok}, s.length ≤ k → (∀ c ∈ s, numChar c = true) →
    (∃ c ∈ s.getLast?, wordChar c = true) → Apart r → Toks true r ts → Toks b (s ++ r) (chunks s ++ ts) := by
  induction k with
  | zero =>
    intro s r b ts hk _ hl _ _
    have : s = [] := List.eq_nil_of_length_eq_zero (by omega)
    subst this
    obtain ⟨c, h, -⟩ := hl
    cases h
  | succ k ih =>
    intro s r b ts hk hs hl hr ht
    cases s with
    | nil => obtain ⟨c, h, -⟩ := hl; cases h
    | cons c s =>
      by_cases hw : wordChar c = true
      · obtain ⟨x, t, e, hx, hxn, hxt⟩ : ∃ x t, c :: s = x ++ t ∧ (∀ d ∈ x, wordChar d = true) ∧ x ≠ [] ∧ ∀ d u, t = d :: u → wordChar d = false := by
          refine ⟨(c :: s).takeWhile wordChar, (c :: s).dropWhile wordChar, (List.takeWhile_append_dropWhile ..).symm,
            fun d hd => mem_takeWhile_holds hd, by rw [List.takeWhile_cons_of_pos hw]; simp, fun d u he => ?_⟩
          have := List.head?_dropWhile_not wordChar (c :: s)
          rw [he] at this
          simpa using this
        rw [e] at hs hl hk ⊢
        rw [chunks_word hxn hx hxt, List.append_assoc, List.cons_append]
        have hends := num_ends (x := x) fun d hd => numChar_word (hs d (by simp [hd])) (hx d hd)
        by_cases h0 : t = []
        · subst h0
          exact toks_word hxn hx hr (by rw [hends]; exact ht)
        · refine toks_word hxn hx ?_ ?_
          · intro d u he
            cases t with
            | nil => exact (h0 rfl).elim
            | cons d' u' => cases he; exact hxt _ _ rfl
          · rw [hends]
            refine ih ?_ (fun d hd => hs d (by simp [hd])) ?_ hr ht
            · rw [List.length_append] at hk
              have : 0 < x.length := List.length_pos_iff.2 hxn
              omega
            · obtain ⟨d, h1, h2⟩ := hl
              refine ⟨d, ?_, h2⟩
              rw [last_append h0] at h1
              exact h1
      · rw [chunks, if_neg hw]
        refine toks_sign (numChar_sign (hs c (by simp)) hw) ?_
        cases s with
        | nil =>
          obtain ⟨d, h1, h2⟩ := hl
          cases h1
          exact (hw h2).elim
        | cons d s =>
          refine ih ?_ (fun d hd => hs d (by simp [List.mem_cons.1 hd])) ?_ hr ht
          · simpa using hk
          · obtain ⟨x, h1, h2⟩ := hl
            exact ⟨x, by rw [List.getLast?_cons_cons] at h1; exact h1, h2⟩

theorem phrase_chunks {s : Str} (hs : ∀ c ∈ s, numChar c = true) (hl : ∃ c ∈ s.getLast?, wordChar c = true) : Phrase s (chunks s) :=
  ⟨fun c hc => numChar_clean (hs c hc), fun _ _ _ ha ht => toks_chunks s.length (Nat.le_refl _) hs hl ha ht⟩

/-- Characters of numbers, the last one a digit. -/
def NumStr (s : Str) : Prop := (∀ c ∈ s, numChar c = true) ∧ ∃ c ∈ s.getLast?, wordChar c = true

theorem NumStr.append {s t : Str} (hs : ∀ c ∈ s, numChar c = true) (ht : NumStr t) : NumStr (s ++ t) := by
  refine ⟨fun c hc => (List.mem_append.1 hc).elim (hs c) (ht.1 c), ?_⟩
  obtain ⟨c, h1, h2⟩ := ht.2
  refine ⟨c, ?_, h2⟩
  have hn : t ≠ [] := by rintro rfl; cases h1
  rw [last_append hn]
  exact h1

theorem digit_numChar {c : Char} (h : c.isDigit = true) : numChar c = true := by unfold numChar; rw [h]; rfl

theorem numStr_digits {s : Str} (hs : ∀ c ∈ s, c.isDigit = true) (hn : s ≠ []) : NumStr s :=
  ⟨fun c hc => digit_numChar (hs c hc), s.getLast hn, by rw [List.getLast?_eq_some_getLast hn]; rfl, digit_wordChar (hs _ (List.getLast_mem hn))⟩

theorem numStr_cons {c : Char} {s : Str} (hc : numChar c = true) (hs : NumStr s) : NumStr (c :: s) :=
  NumStr.append (s := [c]) (fun d hd => by rw [List.mem_singleton] at hd; rw [hd]; exact hc) hs

theorem numStr_exp (e : Int) : NumStr (expText e) := by
  unfold expText
  refine numStr_cons (by decide) (numStr_cons (by split <;> decide) ?_)
  refine numStr_digits ?_ ?_
  · intro c hc
    split at hc
    · rcases List.mem_cons.1 hc with rfl | hc
      · rfl
      · exact toDigits_digit c hc
    · exact toDigits_digit c hc
  · split
    · simp
    · exact Nat.toDigits_ne_nil

theorem numStr_frac {i f : Str} (hi : ∀ c ∈ i, c.isDigit = true) (hn : i ≠ []) (hf : ∀ c ∈ f, c.isDigit = true) : NumStr (i ++ fracText f) := by
  unfold fracText
  by_cases h : f = []
  · rw [if_pos h, List.append_nil]; exact numStr_digits hi hn
  · rw [if_neg h]
    exact NumStr.append (fun c hc => digit_numChar (hi c hc)) (numStr_cons (by decide) (numStr_digits hf h))

theorem numStr_fmtG {D : Str} (hD : ∀ c ∈ D, c.isDigit = true) {dp : Int} (hd : 0 < dp → D ≠ []) : NumStr (fmtG D dp) := by
  unfold fmtG
  split
  · unfold fmtE
    refine NumStr.append (fun c hc => digit_numChar (hD c (List.mem_of_mem_take hc))) (NumStr.append ?_ (numStr_exp _))
    intro c hc
    unfold fracText at hc
    split at hc
    · cases hc
    · rcases List.mem_cons.1 hc with rfl | hc
      · decide
      · exact digit_numChar (hD c (List.mem_of_mem_drop hc))
  · unfold fmtF
    split
    · rename_i h
      refine numStr_frac ?_ ?_ fun c hc => hD c (List.mem_of_mem_drop hc)
      · intro c hc
        rcases List.mem_append.1 hc with hc | hc
        · exact hD c (List.mem_of_mem_take hc)
        · rw [(List.mem_replicate.1 hc).2]; rfl
      · intro e
        have := (List.append_eq_nil_iff.1 e).1
        rcases List.take_eq_nil_iff.1 this with h1 | h1
        · omega
        · exact hd h h1
    · refine numStr_frac (i := ['0']) (by simp) (by simp) ?_
      intro c hc
      rcases List.mem_append.1 hc with hc | hc
      · rw [(List.mem_replicate.1 hc).2]; rfl
      · exact hD c hc

theorem numStr_numberText (a : Int) (d : Nat) : NumStr (numberText a d) := by
  unfold numberText
  generalize literal a d = x
  refine NumStr.append ?_ ?_
  · intro c hc
    split at hc
    · rw [List.mem_singleton.1 hc]; decide
    · cases hc
  · unfold decimalSlice
    by_cases h : x.1.natAbs = 0
    · rw [if_pos h]
      exact numStr_fmtG (fun c hc => by cases hc) (fun h => by omega)
    · rw [if_neg h]
      obtain ⟨z, hz⟩ := stripZeros_append (Nat.toDigits 10 x.1.natAbs)
      refine numStr_fmtG (fun c hc => toDigits_digit (n := x.1.natAbs) c (by rw [hz]; exact List.mem_append.2 (.inl hc))) fun _ he => ?_
      have he' : stripZeros (Nat.toDigits 10 x.1.natAbs) = [] := he
      have := value_toDigits x.1.natAbs
      rw [hz, he', List.nil_append, value_zeros] at this
      omega

theorem phrase_numberText (a : Int) (d : Nat) : Phrase (numberText a d) (numberToks a d) :=
  phrase_chunks (numStr_numberText a d).1 (numStr_numberText a d).2

/-! ### Places -/

/-- The tokens of a statement about the variable or part that these tokens name. -/
def Spec.GoD.St.toksAt (us : List Tok) : Spec.GoD.St → List Tok
  | .assign l e => us ++ (l.flatMap Seg.toks ++ .sign '=' :: (e.toks ++ [.sign ';']))
  | .copy l bs => w "copy" :: .sign '(' :: (us ++ (l.flatMap Seg.toks ++ .sign '[' :: .sign ':' :: .sign ']' :: .sign ',' :: (bytesToks bs ++ [.sign ')', .sign ';'])))

def atToks (us : List Tok) (L : Sts) : List Tok := L.flatMap (Spec.GoD.St.toksAt us)

theorem atToks_r (L : Sts) : atToks [w "r"] L = GoD.stsToks L := by
  unfold atToks GoD.stsToks
  refine congrArg (fun f => L.flatMap f) (funext fun s => ?_)
  cases s with
  | assign l e => simp [St.toksAt, GoD.St.toks, placeToks]
  | copy l bs => simp [St.toksAt, GoD.St.toks, placeToks]

theorem atToks_under (us : List Tok) (s : Seg) (L : Sts) : atToks us (L.map (.under s)) = atToks (us ++ s.toks) L := by
  unfold atToks
  rw [List.flatMap_map]
  congr 1
  funext x
  cases x with
  | assign l e => simp [St.toksAt, St.under]
  | copy l bs => simp [St.toksAt, St.under]

theorem atToks_append (us : List Tok) (L M : Sts) : atToks us (L ++ M) = atToks us L ++ atToks us M := List.flatMap_append

theorem atToks_cons (us : List Tok) (s : Spec.GoD.St) (L : Sts) : atToks us (s :: L) = s.toksAt us ++ atToks us L := rfl

/-- The statements can be read. -/
def Readable (L : Sts) : Prop := ∀ s ∈ L, s.Readable

theorem readable_append {L M : Sts} (h : Readable (L ++ M)) : Readable L ∧ Readable M :=
  ⟨fun s hs => h s (by simp [hs]), fun s hs => h s (by simp [hs])⟩

theorem readable_under {L : Sts} {s : Seg} (h : Readable (L.map (.under s))) : Readable L := by
  intro x hx
  have := h _ (List.mem_map.2 ⟨x, hx, rfl⟩)
  cases x with
  | assign l e => cases e <;> exact this
  | copy l bs => exact this

theorem cat_append (l m : List Str) : cat l ++ cat m = cat (l ++ m) := by
  induction l with
  | nil => rfl
  | cons s l ih => rw [List.cons_append, cat, cat, List.append_assoc, ih]

theorem cat_flat (l m : List Str) : cat (cat l :: m) = cat (l ++ m) := by rw [cat, cat_append]

theorem writes_quoted {print : Char → Bool} (hp : Printing print) {b : Bool} (bs : List Byte) : Writes b (quoted print bs) [.text bs] true :=
  ⟨clean_quoted hp bs, fun _ _ ht => toks_quoted hp.newline bs ht⟩

theorem phrase_field {lv name : Str} {us : List Tok} (h : Phrase lv us) (hn : Exported name) :
    Phrase (cat [lv, ".".toList, name]) (us ++ (Seg.field name).toks) := by
  refine ⟨clean_append h.clean (clean_append (clean_const (by decide +kernel)) (clean_append (clean_exported hn) (fun c hc => by cases hc))), fun b r ts ha ht => ?_⟩
  have e : cat [lv, ".".toList, name] ++ r = lv ++ ('.' :: (name ++ r)) := by simp [cat]
  rw [e, List.append_assoc]
  exact h.toks _ _ _ (apart_append (c := ['.']) _ (by decide)) (toks_sign (by decide +kernel) (toks_exported hn ha ht))

theorem phrase_item {lv : Str} {us : List Tok} (h : Phrase lv us) (i : Nat) :
    Phrase (cat [lv, "[".toList, Nat.toDigits 10 i, "]".toList]) (us ++ (Seg.item i).toks) :=
  phrase_of fun _ => writes_phrase h (by decide +kernel) (lf (us := [.sign '[']) (by decide +kernel) (writes_phrase (phrase_number i) (by decide +kernel)
    (writes_last (us := [.sign ']']) (by decide +kernel))))

theorem phrase_entry {print : Char → Bool} (hp : Printing print) {lv : Str} {us : List Tok} (h : Phrase lv us) (k : List Byte) :
    Phrase (cat [lv, "[".toList, quoted print k, "]".toList]) (us ++ (Seg.entry k).toks) :=
  phrase_of fun _ => writes_phrase h (by decide +kernel) (lf (us := [.sign '[']) (by decide +kernel) (writes_cat (writes_quoted hp k)
    (writes_last (us := [.sign ']']) (by decide +kernel))))

/-! ### Lines -/

theorem writes_assign {lv rv : Str} {us vs : List Tok} (h : Phrase lv us) (hr : Phrase rv vs) :
    Writes false (cat [lv, " = ".toList, rv, "\n".toList]) (us ++ .sign '=' :: (vs ++ [.sign ';'])) false :=
  writes_phrase h (by decide +kernel) (lf (us := [.sign '=']) (by decide +kernel) (writes_phrase hr (by decide +kernel)
    (writes_last (us := [.sign ';']) (by decide +kernel))))

theorem writes_ctorLine (nm : Namer) (n : NS) {lv : Str} {us : List Tok} (h : Phrase lv us) {t : PTy} (ht : NamedTy n t) :
    Writes false (ctorLine nm n lv t) (atToks us (ctorSts nm n t)) false := by
  unfold ctorLine ctorSts
  rcases ctor_text nm n ht with ⟨h1, h2⟩ | ⟨c, h1, h2, h3⟩
  · rw [if_pos h2, h1]; exact writes_nil false
  · rw [if_neg h2, h1]
    exact writes_eq (writes_assign h h3) (by simp [atToks, St.toksAt, Rhs.toks])

/-! ### What is printed -/

/-- The text is that of the statements, about the place that these tokens name, or there is no text and there are no
statements for the same reason. A line end is put behind the text. -/
def Prints (us : List Tok) (s : Made Str) (L : Made Sts) : Prop := match s, L with
  | .ok s, .ok L => Readable L → Writes false (cat [s, "\n".toList]) (atToks us L) false
  | .error e, .error e' => e = e'
  | _, _ => False

/-- The same with the line end in the text. -/
def PrintsLines (us : List Tok) (s : Made Str) (L : Made Sts) : Prop := match s, L with
  | .ok s, .ok L => Readable L → Writes false s (atToks us L) false
  | .error e, .error e' => e = e'
  | _, _ => False

theorem newline_writes : Writes false (cat ["\n".toList]) [] false := writes_last (us := []) (by decide +kernel)

theorem PrintsLines.prints {us : List Tok} {s : Made Str} {L : Made Sts} (h : PrintsLines us s L) : Prints us s L := by
  cases s with
  | error e =>
    cases L with
    | error e' => exact h
    | ok L => exact h.elim
  | ok s =>
    cases L with
    | error e => exact h.elim
    | ok L => exact fun hr => writes_eq (writes_cat (h hr) newline_writes) (List.append_nil _)

theorem prints_assign {lv rv : Str} {us : List Tok} {e : Rhs} (h : Phrase lv us) (hr : Phrase rv e.toks) :
    Prints us (.ok (cat [lv, " = ".toList, rv])) (.ok [.assign [] e]) := by
  intro _
  rw [cat_flat]
  exact writes_eq (writes_assign h hr) (by simp [atToks, St.toksAt])

theorem itemTexts_prints {ctor : Sts} {ct : Str → Str} {at' : Str → Json → Made Str} {as : Json → Made Sts} {lv : Str} {us : List Tok} (h : Phrase lv us)
    (hc : ∀ lv us, Phrase lv us → Writes false (ct lv) (atToks us ctor) false)
    (ha : ∀ lv us j, Phrase lv us → Prints us (at' lv j) (as j)) : ∀ (js : List Json) (i : Nat),
    PrintsLines us (itemTexts ct at' lv i js) (itemSts ctor as i js)
  | [], i => fun _ => writes_nil false
  | j :: js, i => by
    have h1 := ha _ _ j (phrase_item h i)
    have h2 := itemTexts_prints h hc ha js (i + 1)
    have h3 := hc _ _ (phrase_item h i)
    rw [itemTexts, itemSts]
    cases e1 : at' (cat [lv, "[".toList, Nat.toDigits 10 i, "]".toList]) j with
    | error e =>
      cases e2 : as j with
      | error e' => rw [e1, e2] at h1; exact h1
      | ok L => rw [e1, e2] at h1; exact h1.elim
    | ok s =>
      cases e2 : as j with
      | error e' => rw [e1, e2] at h1; exact h1.elim
      | ok L =>
        rw [e1, e2] at h1
        cases e3 : itemTexts ct at' lv (i + 1) js with
        | error e =>
          cases e4 : itemSts ctor as (i + 1) js with
          | error e' => rw [e3, e4] at h2; exact h2
          | ok M => rw [e3, e4] at h2; exact h2.elim
        | ok r =>
          cases e4 : itemSts ctor as (i + 1) js with
          | error e' => rw [e3, e4] at h2; exact h2.elim
          | ok M =>
            rw [e3, e4] at h2
            intro hR
            obtain ⟨r1, r2⟩ := readable_append hR
            obtain ⟨-, r3⟩ := readable_append (readable_under r1)
            have := writes_cat h3 (writes_cat (h1 r3) (writes_end (h2 r2)))
            rw [cat, cat_flat] at this
            refine writes_eq this ?_
            rw [atToks_append, atToks_under, atToks_append, List.append_assoc]

theorem entryTexts_prints {print : Char → Bool} (hp : Printing print) {at' : Str → Json → Made Str} {as : Json → Made Sts} {lv : Str} {us : List Tok} (h : Phrase lv us)
    (ha : ∀ lv us j, Phrase lv us → Prints us (at' lv j) (as j)) : ∀ (kvs : List (Str × Json)),
    PrintsLines us (entryTexts print at' lv kvs) (entrySts as kvs)
  | [] => fun _ => writes_nil false
  | (k, j) :: kvs => by
    have h1 := ha _ _ j (phrase_entry hp h (utf8 k))
    have h2 := entryTexts_prints hp h ha kvs
    rw [entryTexts, entrySts]
    cases e1 : at' (cat [lv, "[".toList, quoted print (utf8 k), "]".toList]) j with
    | error e =>
      cases e2 : as j with
      | error e' => rw [e1, e2] at h1; exact h1
      | ok L => rw [e1, e2] at h1; exact h1.elim
    | ok s =>
      cases e2 : as j with
      | error e' => rw [e1, e2] at h1; exact h1.elim
      | ok L =>
        rw [e1, e2] at h1
        cases e3 : entryTexts print at' lv kvs with
        | error e =>
          cases e4 : entrySts as kvs with
          | error e' => rw [e3, e4] at h2; exact h2
          | ok M => rw [e3, e4] at h2; exact h2.elim
        | ok r =>
          cases e4 : entrySts as kvs with
          | error e' => rw [e3, e4] at h2; exact h2.elim
          | ok M =>
            rw [e3, e4] at h2
            intro hR
            obtain ⟨r1, r2⟩ := readable_append hR
            have := writes_cat (h1 (readable_under r1)) (writes_end (h2 r2))
            rw [cat_flat] at this
            refine writes_eq this ?_
            rw [atToks_append, atToks_under]

theorem fieldTexts_prints (nm : Namer) {fs : List PField} {at' : Str → Json → PTy → Made Str} {as : Json → PTy → Made Sts} {lv : Str} {us : List Tok} (h : Phrase lv us)
    (hf : ∀ f ∈ fs, Exported (fieldGoName nm f.name)) (ha : ∀ f ∈ fs, ∀ lv us j, Phrase lv us → Prints us (at' lv j f.ty) (as j f.ty)) : ∀ (kvs : List (Str × Json)),
    PrintsLines us (fieldTexts' nm fs at' lv kvs) (fieldSts nm fs as kvs)
  | [] => fun _ => writes_nil false
  | (k, j) :: kvs => by
    have h2 := fieldTexts_prints nm h hf ha kvs
    rw [fieldTexts', fieldSts]
    cases e0 : pFieldByName fs k with
    | none => exact rfl
    | some f =>
      have hm : f ∈ fs := List.mem_of_find?_eq_some e0
      have h1 := ha f hm _ _ j (phrase_field h (hf f hm))
      dsimp only
      cases e1 : at' (cat [lv, ".".toList, fieldGoName nm f.name]) j f.ty with
      | error e =>
        cases e2 : as j f.ty with
        | error e' => rw [e1, e2] at h1; exact h1
        | ok L => rw [e1, e2] at h1; exact h1.elim
      | ok s =>
        cases e2 : as j f.ty with
        | error e' => rw [e1, e2] at h1; exact h1.elim
        | ok L =>
          rw [e1, e2] at h1
          cases e3 : fieldTexts' nm fs at' lv kvs with
          | error e =>
            cases e4 : fieldSts nm fs as kvs with
            | error e' => rw [e3, e4] at h2; exact h2
            | ok M => rw [e3, e4] at h2; exact h2.elim
          | ok r =>
            cases e4 : fieldSts nm fs as kvs with
            | error e' => rw [e3, e4] at h2; exact h2.elim
            | ok M =>
              rw [e3, e4] at h2
              intro hR
              obtain ⟨r1, r2⟩ := readable_append hR
              have := writes_cat (h1 (readable_under r1)) (writes_end (h2 r2))
              rw [cat_flat] at this
              refine writes_eq this ?_
              rw [atToks_append, atToks_under]

/-- Fields have names that Avro allows, and types whose definitions do. -/
def LegalFields (n : NS) : Prop := ∀ q d fs doc, n.find q = some d → d.kind = .record fs doc →
  ∀ f ∈ fs, LegalName f.name ∧ LetterFirst f.name ∧ NamedTy n f.ty

theorem bytes_phrase {print : Char → Bool} (hp : Printing print) (bs : List Byte) : Phrase (cat ["[]byte(".toList, quoted print bs, ")".toList]) (bytesToks bs) :=
  phrase_of fun b => lf (us := [.sign '[', .sign ']', w "byte", .sign '(']) (by cases b <;> decide +kernel) (writes_cat (writes_quoted hp bs)
    (writes_last (us := [.sign ')']) (by decide +kernel)))

theorem quoted_phrase {print : Char → Bool} (hp : Printing print) (bs : List Byte) : Phrase (quoted print bs) [.text bs] :=
  phrase_of fun _ => writes_quoted hp bs

theorem default_prints (nm : Namer) {n : NS} {print : Char → Bool} (hp : Printing print) (hn : LegalFields n) : ∀ (k : Nat) (lv : Str) (us : List Tok) (j : Json) (t : PTy),
    NamedTy n t → Phrase lv us → Prints us (defaultValue nm n print k lv j t) (defaultSts nm n k j t)
  | 0, _, _, _, _, _, _ => rfl
  | k + 1, lv, us, j, t, ht, h => by
    have ih := default_prints nm hp hn k
    have hnum : Prints us (match j.number with
        | none => .error .gen
        | some (a, d) => .ok (cat [lv, " = ".toList, numberText a d])) (match j.number with
        | none => .error .gen
        | some (a, d) => .ok [.assign [] (.num (numberToks a d))]) := by
      cases j.number with
      | none => exact rfl
      | some x => exact prints_assign h (phrase_numberText x.1 x.2)
    cases t with
    | prim p d =>
      cases p with
      | null => exact fun _ => writes_eq (writes_cat (writes_nil false) newline_writes) rfl
      | bool =>
        cases j with
        | bool b =>
          refine prints_assign (e := .bool b) h ?_
          cases b
          · exact phrase_const (by decide +kernel) (by decide +kernel)
          · exact phrase_const (by decide +kernel) (by decide +kernel)
        | _ => exact rfl
      | bytes =>
        cases j with
        | str s =>
          have := prints_assign (e := .bytes (decodeByteString s)) h (bytes_phrase hp (decodeByteString s))
          have e : cat [lv, " = []byte(".toList, quoted print (decodeByteString s), ")".toList] =
              cat [lv, " = ".toList, cat ["[]byte(".toList, quoted print (decodeByteString s), ")".toList]] := by
            simp [cat]
          simp only [defaultValue, defaultSts]
          rw [e]
          exact this
        | _ => exact rfl
      | string =>
        cases j with
        | str s => exact prints_assign (e := .text (utf8 s)) h (quoted_phrase hp _)
        | _ => exact rfl
      | int => exact hnum
      | long => exact hnum
      | float => exact hnum
      | double => exact hnum
    | array it d =>
      cases j with
      | arr js =>
        have h1 := itemTexts_prints h (fun lv us h => writes_ctorLine nm n h (t := it) ht) (fun lv us j h => ih lv us j it ht h) js 0
        simp only [defaultValue, defaultSts]
        cases e1 : itemTexts (fun lv => ctorLine nm n lv it) (fun lv j => defaultValue nm n print k lv j it) lv 0 js with
        | error e =>
          cases e2 : itemSts (ctorSts nm n it) (fun j => defaultSts nm n k j it) 0 js with
          | error e' => rw [e1, e2] at h1; exact h1
          | ok L => rw [e1, e2] at h1; exact h1.elim
        | ok s =>
          cases e2 : itemSts (ctorSts nm n it) (fun j => defaultSts nm n k j it) 0 js with
          | error e' => rw [e1, e2] at h1; exact h1.elim
          | ok L =>
            rw [e1, e2] at h1
            intro hR
            have hR' : Readable L := fun s hs => hR s (by simp [hs])
            rw [cat_flat]
            refine writes_eq (writes_phrase h (by decide +kernel) (lf (us := [.sign '=', w "make", .sign '(']) (by decide +kernel)
              (writes_phrase (phrase_type nm n (t := .array it d) ht) (by decide +kernel) (lf (us := [.sign ',']) (by decide +kernel)
              (writes_phrase (phrase_number js.length) (by decide +kernel) (lf (us := [.sign ')', .sign ';']) (by decide +kernel)
              (writes_cat (h1 hR') newline_writes))))))) ?_
            simp only [atToks_cons, St.toksAt, Rhs.toks, List.flatMap_nil, List.nil_append, List.cons_append, List.append_assoc, List.append_nil]
      | _ => exact rfl
    | map it d =>
      cases j with
      | obj kvs => exact (entryTexts_prints hp h (fun lv us j h => ih lv us j it ht h) kvs).prints
      | _ => exact rfl
    | union name ts d =>
      cases ts with
      | nil => exact rfl
      | cons u ts =>
        have hu : NamedTy n u := ht.2.1
        simp only [defaultValue, defaultSts]
        by_cases h0 : nullTy u = true
        · rw [if_pos h0, if_pos h0]
          have e : cat [lv, " = nil".toList] = cat [lv, " = ".toList, "nil".toList] := by simp [cat]
          rw [e]
          exact prints_assign (e := .nil) h (phrase_const (by decide +kernel) (by decide +kernel))
        · rw [if_neg h0, if_neg h0]
          have hl := phrase_field h (goName_exported nm n u hu)
          have h1 := ih (cat [lv, ".".toList, u.goName nm n]) _ j u hu hl
          cases e1 : defaultValue nm n print k (cat [lv, ".".toList, u.goName nm n]) j u with
          | error e =>
            cases e2 : defaultSts nm n k j u with
            | error e' => rw [e1, e2] at h1; exact h1
            | ok L => rw [e1, e2] at h1; exact h1.elim
          | ok s =>
            cases e2 : defaultSts nm n k j u with
            | error e' => rw [e1, e2] at h1; exact h1.elim
            | ok L =>
              rw [e1, e2] at h1
              intro hR
              have hR' : Readable L := (readable_append (L := ctorSts nm n u) (readable_under (s := .field (u.goName nm n)) (fun s hs => hR s (List.mem_cons_of_mem _ hs)))).2
              have hc := writes_ctorLine nm n hl hu
              have hN := new_phrase (goName_exported nm n (.union name (u :: ts) d) ht)
              have := writes_cat (writes_assign h (phrase_of hN)) (writes_cat hc (h1 hR'))
              rw [cat_flat] at this
              rw [cat_flat]
              refine writes_eq this ?_
              simp only [atToks_cons, atToks_under, atToks_append, St.toksAt, Rhs.toks, GoT.Ex.toks, List.flatMap_nil, List.nil_append, List.cons_append, List.append_assoc, List.append_nil]
    | ref q =>
      obtain ⟨d, h1, h2⟩ := ht
      simp only [defaultValue, defaultSts, h1]
      cases hk : d.kind with
      | enum ss doc dflt =>
        cases j with
        | str s =>
          intro hR
          exact prints_assign (e := .const (symbolGoName nm (d.goName nm) s)) h (phrase_exported (hR _ (List.mem_singleton.2 rfl))) hR
        | _ => exact rfl
      | fixed z =>
        cases j with
        | str s =>
          intro _
          rw [cat_flat]
          refine writes_eq (lf (us := [w "copy", .sign '(']) (by decide +kernel) (writes_phrase h (by decide +kernel)
            (lf (us := [.sign '[', .sign ':', .sign ']', .sign ',', .sign '[', .sign ']', w "byte", .sign '(']) (by decide +kernel) (writes_cat (writes_quoted hp (utf8 s))
            (lt (us := [.sign ')', .sign ')']) (by decide +kernel) (writes_last (us := [.sign ';']) (by decide +kernel))))))) ?_
          simp [atToks, St.toksAt, bytesToks]
        | _ => exact rfl
      | record fs doc =>
        cases j with
        | obj kvs =>
          exact (fieldTexts_prints nm h (fun f hf => field_exported nm (hn q d fs doc h1 hk f hf).1 (hn q d fs doc h1 hk f hf).2.1)
            (fun f hf lv us j h => ih lv us j f.ty (hn q d fs doc h1 hk f hf).2.2 h) kvs).prints
        | _ => exact rfl

/-! ### Constructors and `SetDefault` -/

theorem phrase_r {name : Str} (h : Exported name) : Phrase (cat ["r.".toList, name]) ([w "r"] ++ (Seg.field name).toks) := by
  have e : cat ["r.".toList, name] = cat ["r".toList, ".".toList, name] := rfl
  rw [e]
  exact phrase_field (phrase_const (by decide +kernel) (by decide +kernel)) h

theorem dflt_prints (nm : Namer) {n : NS} {print : Char → Bool} (hp : Printing print) (hn : LegalFields n) (k : Nat) {f : PField} (hl : LegalName f.name)
    (hf : LetterFirst f.name) (ht : NamedTy n f.ty) (after : String) {us : List Tok} (ha : f.dflt.isSome → ∀ b, after.toList = '\n' :: b → Writes false (cat [b]) us false)
    (h1 : ∃ b, after.toList = '\n' :: b) : match defaultForField nm n print k f after, dfltSts nm n k f with
      | .ok s, .ok L => Readable L → Writes false s (atToks ([w "r"] ++ (Seg.field (fieldGoName nm f.name)).toks) L ++ if f.dflt.isSome then us else []) false
      | .error e, .error e' => e = e'
      | _, _ => False := by
  obtain ⟨b, hb⟩ := h1
  unfold defaultForField dfltSts
  cases hd : f.dflt with
  | none => exact fun _ => writes_nil false
  | some j =>
    have h := default_prints nm hp hn k _ _ j f.ty ht (phrase_r (field_exported nm hl hf))
    have ha := ha (by rw [hd]; rfl) b hb
    dsimp only
    cases e1 : defaultValue nm n print k (cat ["r.".toList, fieldGoName nm f.name]) j f.ty with
    | error e =>
      cases e2 : defaultSts nm n k j f.ty with
      | error e' => rw [e1, e2] at h; exact h
      | ok L => rw [e1, e2] at h; exact h.elim
    | ok s =>
      cases e2 : defaultSts nm n k j f.ty with
      | error e' => rw [e1, e2] at h; exact h.elim
      | ok L =>
        rw [e1, e2] at h
        intro hR
        have := writes_cat (h hR) ha
        rw [cat_flat] at this
        have e : cat [s, after.toList] = cat ([s, "\n".toList] ++ [b]) := by
          rw [hb]; simp [cat]
        show Writes false (cat [s, after.toList]) _ false
        rw [e]
        exact this

theorem fresh_prints (nm : Namer) {n : NS} {print : Char → Bool} (hp : Printing print) (hn : LegalFields n) (k : Nat) {f : PField} (hl : LegalName f.name)
    (hf : LetterFirst f.name) (ht : NamedTy n f.ty) : PrintsLines [w "r"] (freshText nm n print k f) (freshSts nm n k f) := by
  have h := dflt_prints nm hp hn k hl hf ht "\n\t" (us := []) (fun _ b hb => by
    obtain rfl : b = "\t".toList := by injection hb with _ hb; exact hb.symm
    exact writes_last (us := []) (by decide +kernel)) ⟨"\t".toList, rfl⟩
  unfold freshText freshSts
  cases e1 : defaultForField nm n print k f "\n\t" with
  | error e =>
    cases e2 : dfltSts nm n k f with
    | error e' => rw [e1, e2] at h; exact h
    | ok L => rw [e1, e2] at h; exact h.elim
  | ok s =>
    cases e2 : dfltSts nm n k f with
    | error e' => rw [e1, e2] at h; exact h.elim
    | ok L =>
      rw [e1, e2] at h
      intro hR
      obtain ⟨-, hR'⟩ := readable_append (readable_under hR)
      have h := h hR'
      have hc := writes_ctorLine nm n (phrase_r (field_exported nm hl hf)) ht
      rw [atToks_under, atToks_append]
      refine writes_cat ?_ (writes_eq (writes_end h) (by split <;> simp))
      by_cases h0 : f.ty.erase.nullFirst = true
      · rw [if_pos h0, if_pos h0]; exact writes_nil false
      · rw [if_neg h0, if_neg h0]
        by_cases h2 : f.ty.ctorText nm n = []
        · rw [if_pos h2]
          unfold ctorLine at hc
          rw [if_pos h2] at hc
          exact hc
        · rw [if_neg h2]
          exact writes_eq (writes_cat hc (writes_last (us := []) (by decide +kernel))) (List.append_nil _)

theorem freshTexts_prints (nm : Namer) {n : NS} {print : Char → Bool} (hp : Printing print) (hn : LegalFields n) (k : Nat) : ∀ {fs : List PField},
    (∀ f ∈ fs, LegalName f.name ∧ LetterFirst f.name ∧ NamedTy n f.ty) → PrintsLines [w "r"] (freshTexts nm n print k fs) (newSts nm n k fs)
  | [], _ => fun _ => writes_nil false
  | f :: fs, hf => by
    obtain ⟨a, b, c⟩ := hf f (List.mem_cons_self ..)
    have h1 := fresh_prints nm hp hn k a b c
    have h2 := freshTexts_prints nm hp hn k (fun g hg => hf g (List.mem_cons_of_mem _ hg))
    rw [freshTexts, newSts]
    cases e1 : freshText nm n print k f with
    | error e =>
      cases e2 : freshSts nm n k f with
      | error e' => rw [e1, e2] at h1; exact h1
      | ok L => rw [e1, e2] at h1; exact h1.elim
    | ok s =>
      cases e2 : freshSts nm n k f with
      | error e' => rw [e1, e2] at h1; exact h1.elim
      | ok L =>
        rw [e1, e2] at h1
        cases e3 : freshTexts nm n print k fs with
        | error e =>
          cases e4 : newSts nm n k fs with
          | error e' => rw [e3, e4] at h2; exact h2
          | ok M => rw [e3, e4] at h2; exact h2.elim
        | ok r =>
          cases e4 : newSts nm n k fs with
          | error e' => rw [e3, e4] at h2; exact h2.elim
          | ok M =>
            rw [e3, e4] at h2
            intro hR
            obtain ⟨r1, r2⟩ := readable_append hR
            rw [atToks_append]
            exact writes_cat (h1 r1) (writes_end (h2 r2))

/-- The constructor that the generator writes has the tokens of the statements, or there is none for the same reason. -/
theorem constructor_tokens (nm : Namer) {n : NS} {print : Char → Bool} (hp : Printing print) (hn : LegalFields n) (k : Nat) {name : Str} (hname : Exported name)
    {fs : List PField} (hf : ∀ f ∈ fs, LegalName f.name ∧ LetterFirst f.name ∧ NamedTy n f.ty) : match constructorText nm n print k name fs, newSts nm n k fs with
      | .ok s, .ok L => Readable L → tokens s = some (constructorToks name L)
      | .error e, .error e' => e = e'
      | _, _ => False := by
  have h := freshTexts_prints nm hp hn k hf
  unfold constructorText
  cases e1 : freshTexts nm n print k fs with
  | error e =>
    cases e2 : newSts nm n k fs with
    | error e' => rw [e1, e2] at h; exact h
    | ok L => rw [e1, e2] at h; exact h.elim
  | ok s =>
    cases e2 : newSts nm n k fs with
    | error e' => rw [e1, e2] at h; exact h.elim
    | ok L =>
      rw [e1, e2] at h
      intro hR
      have h := h hR
      rw [atToks_r] at h
      refine writes_tokens (writes_eq (lf (us := [w "func"]) (by decide +kernel) (writes_phrase (phrase_exported (s := newName name) (exported_before (by decide +kernel) hname)) (by decide +kernel)
        (lf (us := [.sign '(', .sign ')', .sign '(']) (by decide +kernel) (writes_phrase (phrase_exported hname) (by decide +kernel)
        (lf (us := [.sign ')', .sign '{', w "r", .sign ':', .sign '=']) (by decide +kernel) (writes_phrase (phrase_exported hname) (by decide +kernel)
        (lf (us := [.sign '{', .sign '}', .sign ';']) (by decide +kernel) (writes_cat h
        (writes_last (us := [w "return", w "r", .sign ';', .sign '}', .sign ';']) (by decide +kernel)))))))))) ?_)
      simp [constructorToks, newName]

theorem cases_prints (nm : Namer) {n : NS} {print : Char → Bool} (hp : Printing print) (hn : LegalFields n) (k : Nat) : ∀ {fs : List PField} (i : Nat),
    (∀ f ∈ fs, LegalName f.name ∧ LetterFirst f.name ∧ NamedTy n f.ty) → match setDefaultTexts nm n print k i fs, setCases nm n k i fs with
      | .ok s, .ok cs => (∀ c ∈ cs, Readable c.2) → Writes false s (cs.flatMap caseToks) false
      | .error e, .error e' => e = e'
      | _, _ => False
  | [], _, _ => fun _ => writes_nil false
  | f :: fs, i, hf => by
    obtain ⟨a, b, c⟩ := hf f (List.mem_cons_self ..)
    have h1 := dflt_prints nm hp hn k a b c "\n\t\treturn\n\t" (us := [w "return", .sign ';']) (fun _ b hb => by
      obtain rfl : b = "\t\treturn\n\t".toList := by injection hb with _ hb; exact hb.symm
      exact writes_last (by decide +kernel)) ⟨"\t\treturn\n\t".toList, rfl⟩
    have h2 := cases_prints nm hp hn k (i + 1) (fun g hg => hf g (List.mem_cons_of_mem _ hg))
    rw [setDefaultTexts, setCases]
    cases e1 : defaultForField nm n print k f "\n\t\treturn\n\t" with
    | error e =>
      cases e2 : dfltSts nm n k f with
      | error e' => rw [e1, e2] at h1; exact h1
      | ok L => rw [e1, e2] at h1; exact h1.elim
    | ok s =>
      cases e2 : dfltSts nm n k f with
      | error e' => rw [e1, e2] at h1; exact h1.elim
      | ok L =>
        rw [e1, e2] at h1
        cases e3 : setDefaultTexts nm n print k (i + 1) fs with
        | error e =>
          cases e4 : setCases nm n k (i + 1) fs with
          | error e' => rw [e3, e4] at h2; exact h2
          | ok M => rw [e3, e4] at h2; exact h2.elim
        | ok r =>
          cases e4 : setCases nm n k (i + 1) fs with
          | error e' => rw [e3, e4] at h2; exact h2.elim
          | ok M =>
            rw [e3, e4] at h2
            cases hd : f.dflt.isSome with
            | false =>
              intro hR
              have hd' : f.dflt = none := by simpa using hd
              have hL : L = [] := by
                rw [dfltSts, hd'] at e2
                cases e2; rfl
              subst hL
              have h1 := h1 (fun s hs => by cases hs)
              rw [hd] at h1
              exact writes_cat (us := []) (writes_nil false) (writes_cat (us := []) (writes_eq h1 rfl) (writes_end (h2 hR)))
            | true =>
              intro hR
              have r1 := readable_under (hR _ (List.mem_cons_self ..))
              have h1 := h1 r1
              rw [hd, if_pos rfl] at h1
              have hc : Writes false (cat ["case ".toList, Nat.toDigits 10 i, ":\n       \t \t".toList]) [w "case", number i, .sign ':'] false :=
                lf (us := [w "case"]) (by decide +kernel) (writes_phrase (phrase_number i) (by decide +kernel) (writes_last (us := [.sign ':']) (by decide +kernel)))
              refine writes_eq (writes_cat hc (writes_cat h1 (writes_end (h2 (fun c hc => hR c (List.mem_cons_of_mem _ hc)))))) ?_
              show _ = caseToks (i, L.map (.under (.field (fieldGoName nm f.name)))) ++ M.flatMap caseToks
              rw [caseToks, ← atToks_r, atToks_under]
              simp

/-- The same for `SetDefault`. -/
theorem setDefault_tokens (nm : Namer) {n : NS} {print : Char → Bool} (hp : Printing print) (hn : LegalFields n) (k : Nat) {name : Str} (hname : Exported name)
    {fs : List PField} (hf : ∀ f ∈ fs, LegalName f.name ∧ LetterFirst f.name ∧ NamedTy n f.ty) : match setDefaultText nm n print k name fs, setCases nm n k 0 fs with
      | .ok s, .ok cs => (∀ c ∈ cs, Readable c.2) → tokens s = some (setDefaultToks name cs)
      | .error e, .error e' => e = e'
      | _, _ => False := by
  have h := cases_prints nm hp hn k 0 hf
  unfold setDefaultText
  cases e1 : setDefaultTexts nm n print k 0 fs with
  | error e =>
    cases e2 : setCases nm n k 0 fs with
    | error e' => rw [e1, e2] at h; exact h
    | ok L => rw [e1, e2] at h; exact h.elim
  | ok s =>
    cases e2 : setCases nm n k 0 fs with
    | error e' => rw [e1, e2] at h; exact h.elim
    | ok cs =>
      rw [e1, e2] at h
      intro hR
      have h := h hR
      refine writes_tokens (writes_eq (lt (us := [w "func", .sign '(', w "r"]) (by decide +kernel) (writes_phrase (phrase_pointer hname) (by decide +kernel)
        (lf (us := [.sign ')', w "SetDefault", .sign '(', w "i", w "int", .sign ')', .sign '{']) (by decide +kernel)
        (lf (us := [w "switch", .sign '(', w "i", .sign ')', .sign '{']) (by decide +kernel) (writes_cat h
        (lf (us := [.sign '}', .sign ';', w "panic", .sign '(']) (by decide +kernel) (writes_cat (writes_quotes (by decide +kernel) (by decide +kernel))
        (writes_last (us := [.sign ')', .sign ';', .sign '}', .sign ';']) (by decide +kernel))))))))) ?_)
      simp [setDefaultToks, GoTy.toks]

end Verif
