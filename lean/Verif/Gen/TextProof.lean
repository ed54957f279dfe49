import Verif.Gen.Text
import Verif.Gen.NamesProof
import Verif.Gen.DefaultProof
import Verif.Go.Lex
import Verif.Spec.GoShape
/-
The tokens of the texts of Gen/Text.
-/
namespace Verif
open Spec Spec.Go

theorem wordChar_iff (c : Char) : wordChar c = true ↔ NameChar c := by
  simp only [wordChar, NameChar, Letter, UpperLetter, LowerLetter, Digit, Bool.or_eq_true, Bool.and_eq_true, decide_eq_true_eq,
    beq_iff_eq]
  constructor
  · rintro (((h | h) | h) | h)
    · exact .inl (.inr h)
    · exact .inl (.inl h)
    · exact .inr (.inl h)
    · exact .inr (.inr h)
  · rintro ((h | h) | h | h)
    · exact .inl (.inl (.inr h))
    · exact .inl (.inl (.inl h))
    · exact .inl (.inr h)
    · exact .inr h

theorem utf8_bytesOf (s : Str) : utf8 s = bytesOf s := by
  rw [utf8_flat]
  unfold bytesOf charBytes
  rw [List.map_flatMap]

/-- A constant text that goes on no word. -/
def apartB : Str → Bool
  | [] => false
  | c :: _ => !wordChar c

theorem apart_append {c : Str} (s : Str) (h : apartB c = true) : Apart (c ++ s) := by
  intro x r e
  cases c with
  | nil => cases h
  | cons y c => cases e; simpa [apartB] using h

theorem exported_word {s : Str} (h : Exported s) : s ≠ [] ∧ (∀ c ∈ s, wordChar c = true) ∧ Tok.ends (.word s) = true := by
  cases s with
  | nil => cases h
  | cons c cs =>
    refine ⟨by simp, ?_, ?_⟩
    · intro x hx
      rw [wordChar_iff]
      rcases List.mem_cons.1 hx with rfl | hx
      · exact .inl (.inl h.1)
      · exact h.2 x hx
    · have : ∀ k ∈ openKeywords, ¬ Exported k := by decide +kernel
      show (!openKeywords.contains (c :: cs)) = true
      rw [Bool.not_eq_true', ← Bool.not_eq_true, List.contains_iff_mem]
      exact fun hm => this _ hm h

theorem exported_append {s t : Str} (h : Exported s) (ht : ∀ c ∈ t, NameChar c) : Exported (s ++ t) := by
  cases s with
  | nil => cases h
  | cons c cs =>
    refine ⟨h.1, fun x hx => ?_⟩
    rcases List.mem_append.1 hx with hx | hx
    · exact h.2 x hx
    · exact ht x hx

theorem exported_chars {s : Str} (h : Exported s) : ∀ c ∈ s, NameChar c :=
  fun c hc => (wordChar_iff c).1 ((exported_word h).2.1 c hc)

theorem toks_exported {b : Bool} {s r : Str} {ts : List Tok} (h : Exported s) (hr : Apart r) (ht : Toks true r ts) :
    Toks b (s ++ r) (.word s :: ts) := by
  obtain ⟨h1, h2, h3⟩ := exported_word h
  exact toks_word h1 h2 hr (by rw [h3]; exact ht)

/-- A word given as a constant. -/
def wordB (s : Str) : Bool := !s.isEmpty && s.all wordChar && Tok.ends (.word s)

theorem toks_const {b : Bool} {s r : Str} {ts : List Tok} (h : wordB s = true) (hr : Apart r) (ht : Toks true r ts) :
    Toks b (s ++ r) (.word s :: ts) := by
  simp only [wordB, Bool.and_eq_true, Bool.not_eq_true', List.all_eq_true] at h
  refine toks_word ?_ h.1.2 hr (by rw [h.2]; exact ht)
  rintro rfl; simp at h

theorem digits_word (n : Nat) : Nat.toDigits 10 n ≠ [] ∧ (∀ c ∈ Nat.toDigits 10 n, wordChar c = true) ∧
    Tok.ends (.word (Nat.toDigits 10 n)) = true := by
  have hd : ∀ c ∈ Nat.toDigits 10 n, Digit c := by
    intro c hc
    have := Nat.isDigit_of_mem_toDigits (by decide) (by decide) hc
    simp only [Char.isDigit, Bool.and_eq_true, decide_eq_true_eq] at this
    exact this
  have hn : Nat.toDigits 10 n ≠ [] := Nat.toDigits_ne_nil
  refine ⟨hn, fun c hc => (wordChar_iff c).2 (.inr (.inl (hd c hc))), ?_⟩
  have : ∀ k ∈ openKeywords, ∃ c ∈ k, ¬ Digit c := by decide +kernel
  show (!openKeywords.contains _) = true
  rw [Bool.not_eq_true', ← Bool.not_eq_true, List.contains_iff_mem]
  intro hm
  obtain ⟨c, hc, hx⟩ := this _ hm
  exact hx (hd c hc)

theorem toks_number {b : Bool} (n : Nat) {r : Str} {ts : List Tok} (hr : Apart r) (ht : Toks true r ts) :
    Toks b (Nat.toDigits 10 n ++ r) (number n :: ts) := by
  obtain ⟨h1, h2, h3⟩ := digits_word n
  exact toks_word h1 h2 hr (by rw [h3]; exact ht)

/-! Characters between quotes that stand for themselves. -/

/-- A character that stands for itself in a string literal. -/
def PlainStr (c : Char) : Prop := c ≠ '"' ∧ c ≠ '\\' ∧ c ≠ '\n'

instance (c : Char) : Decidable (PlainStr c) := inferInstanceAs (Decidable (_ ∧ _ ∧ _))

theorem strLit_plain : ∀ (p r : Str) (n : Nat), (∀ c ∈ p, PlainStr c) → p.length < n → strLit n (p ++ '"' :: r) = some (bytesOf p, r)
  | [], r, 0, _, h => by omega
  | [], r, n + 1, _, _ => rfl
  | c :: p, r, 0, _, h => by omega
  | c :: p, r, n + 1, hp, h => by
    have hc := hp c (by simp)
    rw [List.cons_append, strLit, if_neg hc.1]
    have : element (c :: (p ++ '"' :: r)) = some (charBytes c, p ++ '"' :: r) := by
      simp only [element]
      rw [if_neg hc.2.2, if_pos hc.2.1]
    rw [this]
    simp only
    rw [strLit_plain p r n (fun x hx => hp x (by simp [hx])) (by simpa using h)]
    rfl

theorem toks_plain {b : Bool} {p r : Str} {ts : List Tok} (hp : ∀ c ∈ p, PlainStr c) (ht : Toks true r ts) :
    Toks b ('"' :: (p ++ '"' :: r)) (.text (bytesOf p) :: ts) := by
  obtain ⟨n, ht⟩ := ht
  refine ⟨n + 1, ?_⟩
  rw [tokensFrom_cons, if_neg (by decide), if_neg (by decide), if_neg (by decide), if_neg (by decide), if_pos rfl,
    strLit_plain p r _ hp (by simp)]
  simp only [ht, Option.map_some]

theorem name_plain {c : Char} (h : NameChar c ∨ c = '.') : PlainStr c := by
  rcases h with h | rfl
  · exact ⟨nameChar_ne h (by decide), nameChar_ne h (by decide), nameChar_ne h (by decide)⟩
  · decide

/-! Characters no source may hold. -/

/-- The text holds no NUL and no byte order mark. -/
def Clean (s : Str) : Prop := ∀ c ∈ s, forbidden c = false

theorem clean_append {s t : Str} (hs : Clean s) (ht : Clean t) : Clean (s ++ t) :=
  fun c hc => (List.mem_append.1 hc).elim (hs c) (ht c)

theorem clean_cons {c : Char} {s : Str} (hc : forbidden c = false) (hs : Clean s) : Clean (c :: s) :=
  fun x hx => by
    rcases List.mem_cons.1 hx with rfl | hx
    · exact hc
    · exact hs x hx

theorem clean_const {s : Str} (h : s.all (fun c => !forbidden c) = true) : Clean s :=
  fun c hc => by simpa using List.all_eq_true.1 h c hc

theorem clean_flatMap {α : Type} {l : List α} {f : α → Str} (h : ∀ a ∈ l, Clean (f a)) : Clean (l.flatMap f) := by
  intro c hc
  obtain ⟨a, ha, hc⟩ := List.mem_flatMap.1 hc
  exact h a ha c hc

theorem forbidden_name {c : Char} (h : NameChar c ∨ c = '.') : forbidden c = false := by
  rcases h with h | rfl
  · rw [nameChar_iff] at h
    simp only [forbidden, Bool.or_eq_false_iff, beq_eq_false_iff_ne]
    omega
  · rfl

theorem clean_names {s : Str} (h : ∀ c ∈ s, NameChar c) : Clean s := fun c hc => forbidden_name (.inl (h c hc))

theorem clean_exported {s : Str} (h : Exported s) : Clean s := clean_names (exported_chars h)

theorem clean_hexDigits : ∀ (k n : Nat), Clean (hexDigits k n)
  | 0, _ => fun _ h => by cases h
  | k + 1, n => by
    refine clean_append (clean_hexDigits k _) (clean_cons ?_ (fun _ h => by cases h))
    have : ∀ m < 16, forbidden (Char.ofNat (if m < 10 then 48 + m else 87 + m)) = false := by decide +kernel
    exact this _ (Nat.mod_lt _ (by decide))

theorem clean_quoteRune {print : Char → Bool} (hp : Printing print) (c : Char) : Clean (quoteRune print c) := by
  unfold quoteRune
  by_cases h1 : c = '"' ∨ c = '\\'
  · rw [if_pos h1]
    rcases h1 with rfl | rfl <;> exact clean_const (by decide)
  rw [if_neg h1]
  by_cases h2 : print c = true
  · rw [if_pos h2]
    refine clean_cons ?_ (fun _ h => by cases h)
    cases hf : forbidden c with
    | false => rfl
    | true => rw [hp.others c hf] at h2; cases h2
  rw [if_neg h2]
  cases h3 : controlEscape c with
  | some e =>
    simp only
    have : forbidden e = false := by
      simp only [controlEscape] at h3
      repeat' split at h3
      all_goals first | (cases h3; decide) | cases h3
    exact clean_cons (by decide) (clean_cons this (fun _ h => by cases h))
  | none =>
    simp only
    by_cases h4 : c.toNat < 32 ∨ c.toNat = 127
    · rw [if_pos h4]; exact clean_cons (by decide) (clean_cons (by decide) (clean_hexDigits _ _))
    rw [if_neg h4]
    by_cases h5 : c.toNat < 65536
    · rw [if_pos h5]; exact clean_cons (by decide) (clean_cons (by decide) (clean_hexDigits _ _))
    · rw [if_neg h5]; exact clean_cons (by decide) (clean_cons (by decide) (clean_hexDigits _ _))

theorem clean_quoteFrom {print : Char → Bool} (hp : Printing print) : ∀ (n : Nat) (bs : List UInt8), Clean (quoteFrom print n bs)
  | 0, bs => by cases bs <;> exact fun _ h => by cases h
  | n + 1, [] => fun _ h => by cases h
  | n + 1, b :: bs => by
    simp only [quoteFrom]
    split
    · exact clean_append (clean_quoteRune hp _) (clean_quoteFrom hp n _)
    · exact clean_append (clean_cons (by decide) (clean_cons (by decide) (clean_hexDigits _ _))) (clean_quoteFrom hp n _)

theorem clean_quoted {print : Char → Bool} (hp : Printing print) (bs : List Byte) : Clean (quoted print bs) :=
  clean_append (clean_cons (by decide) (clean_quoteFrom hp _ _)) (clean_const (by decide))

/-! Names in quotes. -/

theorem quoteFrom_names {print : Char → Bool} (hp : Printing print) : ∀ (s : Str) (n : Nat), (∀ c ∈ s, NameChar c) → s.length ≤ n →
    quoteFrom print n (s.flatMap String.utf8EncodeChar) = s
  | [], 0, _, _ => rfl
  | [], n + 1, _, _ => rfl
  | c :: s, 0, _, h => by simp at h
  | c :: s, n + 1, hs, h => by
    have hc := hs c (by simp)
    have h128 : c.toNat < 128 := by rw [nameChar_iff] at hc; omega
    have he : String.utf8EncodeChar c = [c.toNat.toUInt8] := by
      apply String.utf8EncodeChar_eq_singleton
      rw [Char.utf8Size_eq_one_iff]
      show c.toNat ≤ 127
      omega
    have hd : ByteArray.utf8DecodeChar? ((c :: s).flatMap String.utf8EncodeChar).toByteArray 0 = some c := by
      have := ByteArray.utf8DecodeChar?_utf8EncodeChar_append (b := (s.flatMap String.utf8EncodeChar).toByteArray) (c := c)
      rw [← List.toByteArray_append] at this
      simpa using this
    rw [List.flatMap_cons, he] at hd ⊢
    rw [List.singleton_append] at hd ⊢
    rw [quoteFrom, hd]
    have hsz : c.utf8Size = 1 := by rw [Char.utf8Size_eq_one_iff]; show c.toNat ≤ 127; omega
    simp only [hsz, List.drop_succ_cons, List.drop_zero]
    rw [quoteFrom_names hp s n (fun x hx => hs x (by simp [hx])) (by simpa using h)]
    have hq : quoteRune print c = [c] := by
      unfold quoteRune
      rw [if_neg, if_pos (hp.names c ((wordChar_iff c).2 hc))]
      rintro (rfl | rfl) <;> exact absurd hc (by decide)
    rw [hq]; rfl

theorem quoted_names {print : Char → Bool} (hp : Printing print) {s : Str} (hs : ∀ c ∈ s, NameChar c) :
    quoted print (utf8 s) = '"' :: (s ++ ['"']) := by
  unfold quoted
  rw [utf8_flat, List.map_map]
  have e : (UInt8.ofBitVec ∘ UInt8.toBitVec) = id := rfl
  rw [e, List.map_id, List.length_map, quoteFrom_names hp s _ hs]
  · rfl
  · induction s with
    | nil => simp
    | cons c s ih =>
      have := ih (fun x hx => hs x (by simp [hx]))
      have : 0 < (String.utf8EncodeChar c).length := by
        rw [String.length_utf8EncodeChar]; exact Char.utf8Size_pos c
      rw [List.flatMap_cons, List.length_append, List.length_cons]; omega

/-! Names and types. -/

theorem primName_exported (p : Prim) : Exported p.goName := by cases p <;> decide +kernel

theorem exported_letterFirst {s : Str} (h : Exported s) : LetterFirst s := by
  cases s with
  | nil => cases h
  | cons c cs => exact ⟨[], c, cs, rfl, (fun _ h => by cases h), .inl h.1⟩

theorem exported_before {s t : Str} (hs : Exported s) (ht : Exported t) : Exported (s ++ t) := exported_append hs (exported_chars ht)

mutual
theorem goName_exported (nm : Namer) (n : NS) : ∀ (t : PTy), NamedTy n t → Exported (t.goName nm n)
  | .prim p _, _ => by simp only [PTy.goName]; exact primName_exported p
  | .array t _, h => by
    simp only [PTy.goName]
    exact exported_before (by decide +kernel) (goName_exported nm n t (by simpa only [NamedTy] using h))
  | .map t _, h => by
    simp only [PTy.goName]
    exact exported_before (by decide +kernel) (goName_exported nm n t (by simpa only [NamedTy] using h))
  | .union name ts _, h => by
    simp only [NamedTy] at h
    simp only [PTy.goName]
    by_cases hn : name = []
    · rw [if_pos hn]
      have := goNames_chars nm n ts h.2
      have he : Exported ("Union".toList ++ PTy.goNames nm n ts) := exported_append (by decide +kernel) this
      exact publicName_plain nm (exported_chars he) (exported_letterFirst he)
    · rw [if_neg hn]
      exact publicName_exported nm (h.1.resolve_left hn)
  | .ref q, h => by
    simp only [NamedTy] at h
    obtain ⟨d, hd, hn⟩ := h
    simp only [PTy.goName, hd]
    exact publicName_exported nm hn
theorem goNames_chars (nm : Namer) (n : NS) : ∀ (ts : List PTy), NamedTys n ts → ∀ c ∈ PTy.goNames nm n ts, NameChar c
  | [], _ => fun c h => by simp only [PTy.goNames] at h; cases h
  | t :: ts, h => by
    simp only [NamedTys] at h
    intro c hc
    simp only [PTy.goNames, List.mem_append] at hc
    rcases hc with hc | hc
    · exact exported_chars (goName_exported nm n t h.1) c hc
    · exact goNames_chars nm n ts h.2 c hc
end

theorem hasNull_any : ∀ ts : List PTy, PTy.hasNull ts = ts.any nullTy
  | [] => rfl
  | .prim .null _ :: ts => rfl
  | .prim .bool _ :: ts => by simp only [PTy.hasNull, List.any_cons, nullTy, Bool.false_or, hasNull_any ts]
  | .prim .int _ :: ts => by simp only [PTy.hasNull, List.any_cons, nullTy, Bool.false_or, hasNull_any ts]
  | .prim .long _ :: ts => by simp only [PTy.hasNull, List.any_cons, nullTy, Bool.false_or, hasNull_any ts]
  | .prim .float _ :: ts => by simp only [PTy.hasNull, List.any_cons, nullTy, Bool.false_or, hasNull_any ts]
  | .prim .double _ :: ts => by simp only [PTy.hasNull, List.any_cons, nullTy, Bool.false_or, hasNull_any ts]
  | .prim .bytes _ :: ts => by simp only [PTy.hasNull, List.any_cons, nullTy, Bool.false_or, hasNull_any ts]
  | .prim .string _ :: ts => by simp only [PTy.hasNull, List.any_cons, nullTy, Bool.false_or, hasNull_any ts]
  | .array _ _ :: ts => by simp only [PTy.hasNull, List.any_cons, nullTy, Bool.false_or, hasNull_any ts]
  | .map _ _ :: ts => by simp only [PTy.hasNull, List.any_cons, nullTy, Bool.false_or, hasNull_any ts]
  | .union _ _ _ :: ts => by simp only [PTy.hasNull, List.any_cons, nullTy, Bool.false_or, hasNull_any ts]
  | .ref _ :: ts => by simp only [PTy.hasNull, List.any_cons, nullTy, Bool.false_or, hasNull_any ts]

theorem frag_null (b : Bool) : frag 5 b "*types.".toList = some ([.sign '*', .word "types".toList, .sign '.'], false) := by
  cases b <;> decide +kernel
theorem frag_slice (b : Bool) : frag 5 b "[]".toList = some ([.sign '[', .sign ']'], true) := by
  cases b <;> decide +kernel
theorem frag_dict (b : Bool) : frag 6 b "map[string]".toList = some ([w "map", .sign '[', w "string", .sign ']'], true) := by
  cases b <;> decide +kernel
theorem frag_star (b : Bool) : frag 3 b "*".toList = some ([.sign '*'], false) := by
  cases b <;> decide +kernel
theorem null_split : "*types.NullVal".toList = "*types.".toList ++ "NullVal".toList := by decide +kernel
theorem words_prim : wordB "NullVal".toList = true ∧ wordB "bool".toList = true ∧ wordB "int32".toList = true ∧ wordB "int64".toList = true ∧
    wordB "float32".toList = true ∧ wordB "float64".toList = true ∧ wordB "Bytes".toList = true ∧ wordB "string".toList = true := by
  decide +kernel

theorem toks_prim (p : Prim) {b : Bool} {r : Str} {ts : List Tok} (hr : Apart r) (ht : Toks true r ts) :
    Toks b (p.goType ++ r) ((primType p).toks ++ ts) := by
  obtain ⟨w0, w1, w2, w3, w4, w5, w6, w7⟩ := words_prim
  cases p with
  | null =>
    have h1 : Toks false ("NullVal".toList ++ r) (.word "NullVal".toList :: ts) := toks_const w0 hr ht
    have h2 := toks_frag 5 (frag_null b) h1
    rw [← List.append_assoc, ← null_split] at h2
    exact h2
  | bool => exact toks_const w1 hr ht
  | int => exact toks_const w2 hr ht
  | long => exact toks_const w3 hr ht
  | float => exact toks_const w4 hr ht
  | double => exact toks_const w5 hr ht
  | bytes => exact toks_const w6 hr ht
  | string => exact toks_const w7 hr ht

/-- A type, followed by a text that goes on no word. -/
theorem toks_type (nm : Namer) (n : NS) : ∀ (t : PTy) (b : Bool) (r : Str) (ts : List Tok), NamedTy n t → Apart r → Toks true r ts →
    Toks b (t.goType nm n ++ r) ((goTypeOf nm n t).toks ++ ts)
  | .prim p d, b, r, ts, _, hr, ht => by simp only [goType_prim, goTypeOf]; exact toks_prim p hr ht
  | .array t _, b, r, ts, h, hr, ht => by
    have h1 := toks_type nm n t true r ts (by simpa only [NamedTy] using h) hr ht
    have h2 := toks_frag 5 (frag_slice b) h1
    simp only [goType_array, goTypeOf, GoTy.toks]
    rw [List.append_assoc]
    exact h2
  | .map t _, b, r, ts, h, hr, ht => by
    have h1 := toks_type nm n t true r ts (by simpa only [NamedTy] using h) hr ht
    have h2 := toks_frag 6 (frag_dict b) h1
    simp only [goType_map, goTypeOf, GoTy.toks]
    rw [List.append_assoc]
    exact h2
  | .union name us d, b, r, ts, h, hr, ht => by
    have he := goName_exported nm n _ h
    rw [goType_union, goTypeOf, hasNull_any]
    generalize PTy.goName nm n (.union name us d) = g at *
    by_cases hu : us.any nullTy = true
    · rw [if_pos hu, if_pos hu]
      have h2 := toks_frag 3 (frag_star b) (toks_exported he hr ht)
      simp only [GoTy.toks]
      rw [List.append_assoc]
      exact h2
    · rw [if_neg hu, if_neg hu]
      exact toks_exported he hr ht
  | .ref q, b, r, ts, h, hr, ht => by
    have he := goName_exported nm n _ h
    simp only [goType_ref, goTypeOf, GoTy.toks]
    exact toks_exported he hr ht

theorem clean_goType (nm : Namer) (n : NS) : ∀ (t : PTy), NamedTy n t → Clean (t.goType nm n)
  | .prim p _, _ => by simp only [goType_prim]; cases p <;> exact clean_const (by decide +kernel)
  | .array t _, h => by
    simp only [goType_array]
    exact clean_append (clean_const (by decide +kernel)) (clean_goType nm n t (by simpa only [NamedTy] using h))
  | .map t _, h => by
    simp only [goType_map]
    exact clean_append (clean_const (by decide +kernel)) (clean_goType nm n t (by simpa only [NamedTy] using h))
  | .union name us d, h => by
    have he := goName_exported nm n _ h
    rw [goType_union]
    split
    · exact clean_append (clean_const (by decide +kernel)) (clean_exported he)
    · exact clean_exported he
  | .ref q, h => by
    have he := goName_exported nm n _ h
    simp only [goType_ref]
    exact clean_exported he

/-! Documentation. -/

theorem docText_line (doc : Str) : '\n' ∉ docText doc := by
  simp only [docText, List.mem_map, not_exists, not_and]
  intro c _
  by_cases h : c = '\n'
  · rw [if_pos h]; decide
  · rw [if_neg h]; exact h

theorem clean_docLine {doc : Str} (h : Clean doc) : Clean (docLine doc) := by
  unfold docLine
  by_cases hd : docText doc = []
  · rw [if_pos hd]; exact fun _ h => by cases h
  · rw [if_neg hd]
    refine clean_append (clean_const (by decide +kernel)) ?_
    intro c hc
    simp only [docText, List.mem_map] at hc
    obtain ⟨x, hx, rfl⟩ := hc
    by_cases hn : x = '\n'
    · rw [if_pos hn]; rfl
    · rw [if_neg hn]; exact h x hx

/-- A line of documentation has no tokens. `p` is what the template puts behind it. -/
theorem toks_doc {b : Bool} (doc : Str) {p s : Str} {ts : List Tok} (hp : ∀ c ∈ p, c = ' ') (h : Toks b ('\n' :: s) ts) :
    Toks b (docLine doc ++ (p ++ '\n' :: s)) ts := by
  unfold docLine
  by_cases hd : docText doc = []
  · rw [if_pos hd]
    show Toks b (p ++ '\n' :: s) ts
    clear hd
    induction p with
    | nil => exact h
    | cons c p ih =>
      exact toks_space (.inl (hp c (by simp))) (ih (fun x hx => hp x (by simp [hx])))
  · rw [if_neg hd]
    have e : ("// ".toList ++ docText doc) ++ (p ++ '\n' :: s) = '/' :: '/' :: ((' ' :: (docText doc ++ p)) ++ '\n' :: s) := by
      simp
    rw [e]
    refine toks_comment ?_ h
    simp only [List.mem_cons, List.mem_append, not_or]
    exact ⟨by decide, docText_line doc, fun hm => absurd (hp _ hm) (by decide)⟩

end Verif
