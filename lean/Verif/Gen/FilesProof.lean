import Verif.Gen.Files
import Verif.Gen.NamesProof
import Verif.Parser.Resolve
/- Lemmas about the generated files. -/
namespace Verif
open Spec
set_option linter.unusedSimpArgs false
set_option linter.unusedVariables false

/-! ### Snake case can be undone on camel case names -/

def unsnake : Bool → Str → Str
  | _, [] => []
  | up, c :: cs => if c = '_' then unsnake true cs else (if up then upperAscii c else c) :: unsnake false cs

theorem unsnake_append : ∀ (a r : Str) (b : Bool), unsnake b (a ++ '_' :: r) = unsnake b a ++ unsnake true r
  | [], r, b => by simp [unsnake]
  | c :: a, r, b => by
    simp only [List.cons_append, unsnake]
    by_cases h : c = '_'
    · rw [if_pos h, if_pos h]; exact unsnake_append a r true
    · rw [if_neg h, if_neg h, List.cons_append, unsnake_append a r false]

theorem lower_upper {c : Char} (h : UpperLetter c) : upperAscii (lowerAscii c) = c := by
  have h' := (upper_iff c).1 h
  have e : (lowerAscii c).toNat = c.toNat + 32 := by rw [lowerAscii_toNat, if_pos h]
  rw [char_eq_iff, upperAscii_toNat, if_pos ((lower_iff _).2 (by omega)), e]
  omega

theorem lowerAscii_ne {c : Char} (h : Letter c ∨ Digit c) : lowerAscii c ≠ '_' := by
  rw [ne_eq, char_eq_iff, lowerAscii_toNat]
  show ¬ _ = 95
  rw [letter_iff, digit_iff] at h
  split <;> rename_i h' <;> rw [upper_iff] at h' <;> omega

theorem lowerAscii_id {c : Char} (h : ¬ UpperLetter c) : lowerAscii c = c := by
  rw [char_eq_iff, lowerAscii_toNat, if_neg h]

theorem letter_ne' {c : Char} (h : Letter c ∨ Digit c) : c ≠ '_' := by
  rintro rfl; revert h; decide

instance (cs : Str) : Decidable (cs.head?.elim False LowerLetter) := match cs with
  | [] => inferInstanceAs (Decidable False)
  | d :: _ => inferInstanceAs (Decidable (LowerLetter d))

theorem toSnakeFrom_cons (p : Char) (c : Char) (cs : Str) :
    toSnakeFrom (some p) (c :: cs) =
      (if UpperLetter c ∧ (cs.head?.elim False LowerLetter ∨ LowerLetter p) then ['_'] else []) ++
        lowerAscii c :: toSnakeFrom (some c) cs := by
  simp only [toSnakeFrom]
  congr 1
  have : (isUpper c && ((match cs with | d :: _ => isLower d | [] => false) || isLower p)) = true ↔
      UpperLetter c ∧ (cs.head?.elim False LowerLetter ∨ LowerLetter p) := by
    rw [Bool.and_eq_true, Bool.or_eq_true, isUpper_iff, isLower_iff]
    cases cs with
    | nil => simp
    | cons d ds => simp [isLower_iff]
  by_cases h : UpperLetter c ∧ (cs.head?.elim False LowerLetter ∨ LowerLetter p)
  · rw [if_pos h]; exact if_pos (this.2 h)
  · rw [if_neg h]; exact if_neg (fun h' => h (this.1 h'))

theorem unsnake_snakeFrom : ∀ (cs : Str) (p : Char), CamelFrom (decide (LowerLetter p)) cs →
    unsnake false (toSnakeFrom (some p) cs) = cs
  | [], p, _ => rfl
  | c :: cs, p, h => by
    obtain ⟨h1, h2, h3⟩ := h
    have ih := unsnake_snakeFrom cs c h3
    rw [toSnakeFrom_cons]
    by_cases hu : UpperLetter c
    · rw [if_pos ⟨hu, by
        rcases h2 hu with h | h
        · exact .inr (by simpa using h)
        · exact .inl h⟩]
      simp only [List.singleton_append, unsnake, if_true, if_neg (lowerAscii_ne h1), ih, lower_upper hu]
    · rw [if_neg (fun h => hu h.1)]
      simp only [List.nil_append, unsnake, ih, lowerAscii_id hu]
      simp [letter_ne' h1]

theorem unsnake_snake {s : Str} (h : Camel s) : unsnake true (toSnake s) = s := by
  cases s with
  | nil => exact h.elim
  | cons c cs =>
    have hnl : decide (LowerLetter c) = false := by
      rw [decide_eq_false_iff_not, lower_iff]
      have := (upper_iff c).1 h.1; omega
    have ih := unsnake_snakeFrom cs c (by rw [hnl]; exact h.2)
    simp only [toSnake, toSnakeFrom, Bool.false_eq_true, if_false, List.nil_append, unsnake,
      if_neg (lowerAscii_ne (.inl (.inl h.1))), ih, lower_upper h.1, if_true]

theorem toSnake_injective {a b : Str} (ha : Camel a) (hb : Camel b) (h : toSnake a = toSnake b) : a = b := by
  rw [← unsnake_snake ha, h, unsnake_snake hb]

/-! ### Names the generator makes up -/

/-- A capital letter, then letters and digits. -/
def Plain : Str → Prop
  | [] => False
  | c :: cs => UpperLetter c ∧ ∀ x ∈ cs, Letter x ∨ Digit x

theorem camel_plain {s : Str} (h : Camel s) : Plain s := by
  have key : ∀ (cs : Str) (b : Bool), CamelFrom b cs → ∀ x ∈ cs, Letter x ∨ Digit x := by
    intro cs
    induction cs with
    | nil => intro b _ x hx; simp at hx
    | cons c cs ih =>
      intro b h x hx
      simp only [List.mem_cons] at hx
      rcases hx with rfl | hx
      · exact h.1
      · exact ih _ h.2.2 x hx
  cases s with
  | nil => exact h.elim
  | cons c cs => exact ⟨h.1, key cs _ h.2⟩

theorem plain_all {s : Str} (h : Plain s) : ∀ x ∈ s, Letter x ∨ Digit x := by
  cases s with
  | nil => exact h.elim
  | cons c cs =>
    intro x hx
    simp only [List.mem_cons] at hx
    rcases hx with rfl | hx
    · exact .inl (.inl h.1)
    · exact h.2 x hx

theorem plain_append {a b : Str} (ha : Plain a) (hb : ∀ x ∈ b, Letter x ∨ Digit x) : Plain (a ++ b) := by
  cases a with
  | nil => exact ha.elim
  | cons c cs =>
    refine ⟨ha.1, ?_⟩
    intro x hx
    rcases List.mem_append.1 hx with hx | hx
    · exact ha.2 x hx
    · exact hb x hx

theorem valid_char {x : Char} (h : Letter x ∨ Digit x) : isInvalidToken x = false := by
  rcases h with h | h
  · exact letter_valid h
  · rw [digit_iff] at h
    simp only [isInvalidToken, Bool.or_eq_false_iff, beq_eq_false_iff_ne, ne_eq, char_eq_iff]
    refine ⟨⟨⟨⟨⟨⟨?_, ?_⟩, ?_⟩, ?_⟩, ?_⟩, ?_⟩, ?_⟩ <;> (intro h'; revert h; rw [h']; decide)

theorem spaceRuns_id : ∀ (s : Str) (b : Bool), (∀ x ∈ s, Letter x ∨ Digit x) → spaceRuns b s = s
  | [], _, _ => rfl
  | c :: cs, b, h => by
    simp only [spaceRuns, valid_char (h c (by simp))]
    rw [spaceRuns_id cs false (fun x hx => h x (by simp [hx]))]; simp

theorem publicName_id (nm : Namer) {s : Str} (h : Plain s) : nm.publicName s = s := by
  have hall := plain_all h
  have hn : ∀ x ∈ s, NameChar x := fun x hx => (hall x hx).elim .inl (fun h => .inr (.inl h))
  cases s with
  | nil => exact h.elim
  | cons c cs =>
    cases nm with
    | simple =>
      show toPublicName (c :: cs) = _
      rw [toPublicName_cons (.inl h.1) (fun x hx => hn x (by simp [hx])), upper_eq h.1]
      intro h'
      exact letter_ne' (hall '_' (List.mem_of_getLast? h')) rfl
    | namespaced short =>
      show (title (spaceRuns false (if short then lastTwo (c :: cs) else (c :: cs)))).filter (· ≠ ' ') = _
      have e : (if short then lastTwo (c :: cs) else (c :: cs)) = c :: cs := by
        cases short
        · rfl
        · simp [lastTwo, splitDots_plain (no_dot hn)]
      rw [e, spaceRuns_id _ _ hall, title_cons hn, upper_eq h.1, List.filter_eq_self]
      intro a ha
      have := hall a ha
      simp only [ne_eq, decide_eq_true_eq, decide_not, Bool.not_eq_eq_eq_not, Bool.not_true, decide_eq_false_iff_not]
      rintro rfl
      revert this; decide

/-- Unions without a name of their own, all the way down. -/
inductive Unnamed : PTy → Prop
  | prim : Unnamed (.prim p j)
  | array : Unnamed t → Unnamed (.array t j)
  | map : Unnamed t → Unnamed (.map t j)
  | union : (∀ t ∈ ts, Unnamed t) → Unnamed (.union [] ts js)
  | ref : Unnamed (.ref q)

theorem describes_unnamed {name enc j t ds} (h : Describes false name enc j t ds) :
    Unnamed t ∧ ∀ d ∈ ds, ∀ c ∈ (Root.defn d).children, Unnamed c := by
  refine Describes.rec (short := false)
    (motive_1 := fun _ _ _ t ds _ => Unnamed t ∧ ∀ d ∈ ds, ∀ c ∈ (Root.defn d).children, Unnamed c)
    (motive_2 := fun _ _ _ ts ds _ => (∀ t ∈ ts, Unnamed t) ∧ ∀ d ∈ ds, ∀ c ∈ (Root.defn d).children, Unnamed c)
    (motive_3 := fun _ _ fs ds _ => (∀ f ∈ fs, Unnamed f.ty) ∧ ∀ d ∈ ds, ∀ c ∈ (Root.defn d).children, Unnamed c)
    ?_ ?_ ?_ ?_ ?_ ?_ ?_ ?_ ?_ ?_ ?_ ?_ ?_ ?_ h
  · intros; exact ⟨.prim, by simp⟩
  · intros; exact ⟨.ref, by simp⟩
  · intro _ _ _ _ _ _ ih; exact ⟨.union ih.1, ih.2⟩
  · intro _ _ _ _ _ _ _ _ _ ih; exact ⟨.array ih.1, ih.2⟩
  · intro _ _ _ _ _ _ _ _ _ ih; exact ⟨.map ih.1, ih.2⟩
  · intros; exact ⟨.ref, by simp [Root.children]⟩
  · intros; exact ⟨.ref, by simp [Root.children]⟩
  · intro _ _ _ _ _ _ _ _ _ _ _ _ _ _ _ ih
    refine ⟨.ref, ?_⟩
    intro d hd
    rw [List.mem_append] at hd
    rcases hd with hd | hd
    · exact ih.2 d hd
    · simp only [List.mem_singleton] at hd
      subst hd
      intro c hc
      simp only [Root.children, List.mem_map] at hc
      obtain ⟨f, hf, rfl⟩ := hc
      exact ih.1 f hf
  · intros; exact ⟨.prim, by simp⟩
  · intros; exact ⟨.ref, by simp⟩
  · intros; exact ⟨by simp, by simp⟩
  · intro _ _ _ _ _ _ _ _ _ _ ih1 ih2
    refine ⟨?_, ?_⟩
    · intro t ht
      simp only [List.mem_cons] at ht
      rcases ht with rfl | ht
      · exact ih1.1
      · exact ih2.1 t ht
    · intro d hd
      rw [List.mem_append] at hd
      exact hd.elim (ih1.2 d) (ih2.2 d)
  · intros; exact ⟨by simp, by simp⟩
  · intro _ _ _ _ _ _ _ _ _ _ _ _ _ _ _ _ _ _ _ ih1 ih2
    refine ⟨?_, ?_⟩
    · intro f hf
      simp only [List.mem_cons] at hf
      rcases hf with rfl | hf
      · exact ih1.1
      · exact ih2.1 f hf
    · intro d hd
      rw [List.mem_append] at hd
      exact hd.elim (ih1.2 d) (ih2.2 d)

theorem prim_plain (p : Prim) : Plain p.goName := by
  cases p <;> (refine ⟨by decide, ?_⟩; decide)

theorem array_plain : Plain "Array".toList := ⟨by decide, by decide⟩
theorem map_plain : Plain "Map".toList := ⟨by decide, by decide⟩
theorem union_plain : Plain "Union".toList := ⟨by decide, by decide⟩

section
variable {nm : Namer} {n : NS} (hd : ∀ q d, n.find q = some d → Plain (d.goName nm))
include hd

mutual
theorem goName_plain : ∀ t : PTy, Unnamed t → t.unresolved n = none → Plain (t.goName nm n)
  | .prim p _, _, _ => prim_plain p
  | .array t _, h, hr => by
    cases h with
    | array h => exact plain_append array_plain (plain_all (goName_plain t h (by simpa [PTy.unresolved] using hr)))
  | .map t _, h, hr => by
    cases h with
    | map h => exact plain_append map_plain (plain_all (goName_plain t h (by simpa [PTy.unresolved] using hr)))
  | .union name ts _, h, hr => by
    cases h with
    | union h =>
      have := plain_append union_plain (goNames_plain ts h (by simpa [PTy.unresolved] using hr))
      simp only [PTy.goName, if_true]
      rw [publicName_id nm this]
      exact this
  | .ref q, _, hr => by
    simp only [PTy.unresolved] at hr
    simp only [PTy.goName]
    split at hr
    · rename_i d h; rw [h]; exact hd q d h
    · cases hr
theorem goNames_plain : ∀ ts : List PTy, (∀ t ∈ ts, Unnamed t) → PTy.unresolvedAll n ts = none →
    ∀ x ∈ PTy.goNames nm n ts, Letter x ∨ Digit x
  | [], _, _ => by simp [PTy.goNames]
  | t :: ts, h, hr => by
    simp only [PTy.unresolvedAll] at hr
    split at hr
    · cases hr
    rename_i h1
    intro x hx
    simp only [PTy.goNames, List.mem_append] at hx
    rcases hx with hx | hx
    · exact plain_all (goName_plain t (h t (by simp)) h1) x hx
    · exact goNames_plain ts (fun t ht => h t (by simp [ht])) hr x hx
end

theorem goNames_start : ∀ ts : List PTy, (∀ t ∈ ts, Unnamed t) → PTy.unresolvedAll n ts = none →
    PTy.goNames nm n ts = [] ∨ Plain (PTy.goNames nm n ts)
  | [], _, _ => .inl rfl
  | t :: ts, h, hr => by
    have h2 := hr
    simp only [PTy.unresolvedAll] at h2
    split at h2
    · cases h2
    rename_i h1
    exact .inr (plain_append (goName_plain hd t (h t (by simp)) h1)
      (goNames_plain hd ts (fun t ht => h t (by simp [ht])) h2))
end

/-- What the files of types are called, without `.go`. -/
def TypeFile (base : Str) : Prop :=
  base = "bytes".toList ∨ base = "union".toList ∨
    ∃ w ∈ ["array".toList, "map".toList, "union".toList], ∃ c r, UpperLetter c ∧ base = w ++ '_' :: lowerAscii c :: r

theorem typeFile_word {w : Str} {l : Char} {v : Str} (hw : toSnake w = v) (hl : LowerLetter l) (hlast : w.getLast? = some l)
    (hv : v ∈ ["array".toList, "map".toList, "union".toList])
    (hw' : ∀ s : Str, Plain s → toSnake (w ++ s) = toSnake w ++ toSnakeFrom (some l) s)
    {s : Str} (h : Plain s) : TypeFile (toSnake (w ++ s)) := by
  rw [hw' s h, hw]
  cases s with
  | nil => exact h.elim
  | cons c cs =>
    rw [toSnakeFrom_cons, if_pos ⟨h.1, .inr hl⟩]
    exact .inr (.inr ⟨v, hv, c, _, h.1, rfl⟩)

theorem snake_array {s : Str} (h : Plain s) : TypeFile (toSnake ("Array".toList ++ s)) := by
  refine typeFile_word (l := 'y') (v := "array".toList) (by decide) (by decide) (by decide) (by simp) ?_ h
  intro s hs; rfl
theorem snake_map {s : Str} (h : Plain s) : TypeFile (toSnake ("Map".toList ++ s)) := by
  refine typeFile_word (l := 'p') (v := "map".toList) (by decide) (by decide) (by decide) (by simp) ?_ h
  intro s hs; rfl
theorem snake_union {s : Str} (h : Plain s) : TypeFile (toSnake ("Union".toList ++ s)) := by
  refine typeFile_word (l := 'n') (v := "union".toList) (by decide) (by decide) (by decide) (by simp) ?_ h
  intro s hs; rfl

section
variable {nm : Namer} {n : NS} (hd : ∀ q d, n.find q = some d → Plain (d.goName nm))
include hd

mutual
theorem files_named : ∀ t : PTy, Unnamed t → t.unresolved n = none → ∀ f b, (f, b) ∈ t.files nm n →
    ∃ base, f = base ++ ".go".toList ∧ TypeFile base
  | .prim p _, _, _, f, b, hm => by
    simp only [PTy.files] at hm
    split at hm
    · rename_i h; subst h
      simp only [List.mem_singleton, Prod.mk.injEq] at hm
      exact ⟨toSnake "Bytes".toList, hm.1, .inl (by decide)⟩
    · simp at hm
  | .array t _, h, hr, f, b, hm => by
    cases h with
    | array h =>
      have hr' : t.unresolved n = none := by simpa [PTy.unresolved] using hr
      simp only [PTy.files, List.mem_cons, Prod.mk.injEq] at hm
      rcases hm with ⟨rfl, -⟩ | hm
      · exact ⟨_, rfl, snake_array (goName_plain hd t h hr')⟩
      · exact files_named t h hr' f b hm
  | .map t _, h, hr, f, b, hm => by
    cases h with
    | map h =>
      have hr' : t.unresolved n = none := by simpa [PTy.unresolved] using hr
      simp only [PTy.files, List.mem_cons, Prod.mk.injEq] at hm
      rcases hm with ⟨rfl, -⟩ | hm
      · exact ⟨_, rfl, snake_map (goName_plain hd t h hr')⟩
      · exact files_named t h hr' f b hm
  | .union name ts _, h, hr, f, b, hm => by
    cases h with
    | union h =>
      have hr' : PTy.unresolvedAll n ts = none := by simpa [PTy.unresolved] using hr
      simp only [PTy.files, List.mem_cons, Prod.mk.injEq] at hm
      rcases hm with ⟨rfl, -⟩ | hm
      · refine ⟨_, rfl, ?_⟩
        have hp := plain_append union_plain (goNames_plain hd ts h hr')
        simp only [PTy.goName, if_true]
        rw [publicName_id nm hp]
        rcases goNames_start hd ts h hr' with h1 | h1
        · rw [h1]; exact .inr (.inl (by decide))
        · exact snake_union h1
      · exact filesAll_named ts h hr' f b hm
  | .ref _, _, _, f, b, hm => by simp [PTy.files] at hm
theorem filesAll_named : ∀ ts : List PTy, (∀ t ∈ ts, Unnamed t) → PTy.unresolvedAll n ts = none →
    ∀ f b, (f, b) ∈ PTy.filesAll nm n ts → ∃ base, f = base ++ ".go".toList ∧ TypeFile base
  | [], _, _, f, b, hm => by simp [PTy.filesAll] at hm
  | t :: ts, h, hr, f, b, hm => by
    simp only [PTy.unresolvedAll] at hr
    split at hr
    · cases hr
    rename_i h1
    simp only [PTy.filesAll, List.mem_append] at hm
    rcases hm with hm | hm
    · exact files_named t (h t (by simp)) h1 f b hm
    · exact filesAll_named ts (fun t ht => h t (by simp [ht])) hr f b hm
end
end

/-! ### The package -/

theorem addFile_lookup (files : List (Str × Body)) (e : Str × Body) (f : Str) :
    (addFile files e).lookup f = if f = e.1 then some e.2 else files.lookup f := by
  obtain ⟨g, b⟩ := e
  unfold addFile
  simp only [List.lookup_cons]
  by_cases h : f = g
  · simp [h]
  · have hb : (f == g) = false := by simpa using h
    rw [hb, if_neg h]
    dsimp only
    induction files with
    | nil => rfl
    | cons x xs ih =>
      obtain ⟨a, c⟩ := x
      by_cases ha : a = g
      · subst ha
        rw [List.filter_cons_of_neg (by simp), ih, List.lookup_cons, hb]
      · rw [List.filter_cons_of_pos (by simpa using ha), List.lookup_cons, List.lookup_cons, ih]

/-- When all bodies added under a name agree, that is the body of the file. -/
theorem generated_unique {f : Str} {b : Body} : ∀ (es : List (Str × Body)) (fs : List (Str × Body)),
    (∀ b', (f, b') ∈ es → b' = b) → ((f, b) ∈ es ∨ fs.lookup f = some b) →
    (es.foldl addFile fs).lookup f = some b
  | [], fs, h, hm => by simpa using hm
  | (g, c) :: es, fs, h, hm => by
    rw [List.foldl_cons]
    refine generated_unique es _ (fun b' hb' => h b' (by simp [hb'])) ?_
    by_cases hg : f = g
    · subst hg
      right
      rw [addFile_lookup, if_pos rfl, h c (by simp)]
    · rcases hm with hm | hm
      · simp only [List.mem_cons, Prod.mk.injEq, hg, false_and, false_or] at hm
        exact .inl hm
      · right
        rw [addFile_lookup, if_neg hg]; exact hm

theorem resolveRoots_child {n : NS} : ∀ {rs : List Root}, resolveRoots n rs = .ok () → ∀ r ∈ rs,
    PTy.unresolvedAll n r.children = none
  | [], _, r, hr => by simp at hr
  | x :: rs, h, r, hr => by
    simp only [resolveRoots] at h
    split at h
    · cases h
    rename_i h1
    simp only [List.mem_cons] at hr
    rcases hr with rfl | hr
    · exact h1
    · exact resolveRoots_child h r hr

/-- What the command knows when it starts to generate. -/
theorem command_roots {short : Bool} {js : List Json} {n : NS} (h : parseCommand short js = .ok n) :
    (∀ q d, n.find q = some d → Root.defn d ∈ n.roots) ∧
    (∀ d, Root.defn d ∈ n.roots → n.find d.name = some d) ∧
    (∀ r ∈ n.roots, PTy.unresolvedAll n r.children = none) ∧
    (short = false → ∀ r ∈ n.roots, ∀ c ∈ r.children, Unnamed c) := by
  unfold parseCommand at h
  split at h
  · cases h
  rename_i n' h1
  split at h
  · cases h
  rename_i h2
  cases h
  obtain ⟨ts, ds, h3, h4, h5, -⟩ := parseFiles_ok (holds_empty short) (ts0 := []) ⟨fun t => by simp⟩ h1
  simp only [List.nil_append] at h4 h5
  refine ⟨?_, ?_, resolveRoots_child h2, ?_⟩
  · intro q d hq
    exact (h4.roots d).2 ((h4.find q d).1 hq).1
  · intro d hd
    exact (h4.find _ d).2 ⟨(h4.roots d).1 hd, .inl rfl⟩
  · intro hs
    subst hs
    have key : ∀ {js ts ds}, FilesDescribe false js ts ds → (∀ t ∈ ts, Unnamed t) ∧
        ∀ d ∈ ds, ∀ c ∈ (Root.defn d).children, Unnamed c := by
      intro js ts ds hf
      induction hf with
      | nil => exact ⟨by simp, by simp⟩
      | cons ha _ ih =>
        have := describes_unnamed ha
        refine ⟨?_, ?_⟩
        · intro t ht
          simp only [List.mem_cons] at ht
          rcases ht with rfl | ht
          · exact this.1
          · exact ih.1 t ht
        · intro d hd
          rw [List.mem_append] at hd
          exact hd.elim (this.2 d) (ih.2 d)
    obtain ⟨k1, k2⟩ := key h3
    intro r hr c hc
    cases r with
    | defn d => exact k2 d ((h4.roots d).1 hr) c hc
    | file t =>
      simp only [Root.children, List.mem_singleton] at hc
      subst hc
      exact k1 _ ((h5.iff _).1 hr)

/-- The files added are those of definitions, of containers, and of types. -/
theorem added_cases {nm : Namer} {containers : Bool} {n : NS} {f : Str} {b : Body}
    (h : (f, b) ∈ addedFiles nm containers n) :
    (∃ d, Root.defn d ∈ n.roots ∧ f = fileName (d.goName nm) ∧ b = .defn d) ∨
    (∃ d, Root.defn d ∈ n.roots ∧ containers = true ∧ f = containerFileName (d.goName nm) ∧ b = .container d) ∨
    (∃ r ∈ n.roots, (f, b) ∈ PTy.filesAll nm n r.children) := by
  simp only [addedFiles, List.mem_flatMap] at h
  obtain ⟨r, hr, h⟩ := h
  cases r with
  | file t => exact .inr (.inr ⟨_, hr, h⟩)
  | defn d =>
    simp only [Root.files, List.cons_append, List.mem_cons, List.mem_append, Prod.mk.injEq] at h
    rcases h with ⟨h1, h2⟩ | h | h
    · exact .inl ⟨d, hr, h1, h2⟩
    · simp only [PDef.containerFiles] at h
      split at h
      · split at h
        · rename_i hc
          simp only [List.mem_singleton, Prod.mk.injEq] at h
          exact .inr (.inl ⟨d, hr, hc, h.1, h.2⟩)
        · simp at h
      · simp at h
    · exact .inr (.inr ⟨_, hr, h⟩)

theorem camel_append_container (s : Str) (h : Camel s) : unsnake true (toSnake s ++ "_container".toList) = s ++ "Container".toList := by
  have := unsnake_append (toSnake s) "container".toList true
  rw [unsnake_snake h] at this
  exact this

theorem typeFile_reserved {s : Str} (hs : Camel s) (h : TypeFile (toSnake s)) : Reserved s := by
  have e := unsnake_snake hs
  rcases h with h | h | ⟨w, hw, c, r, hc, h⟩
  · rw [h] at e; rw [← e]; exact .inl (by decide)
  · rw [h] at e; rw [← e]; exact .inr ⟨"Union".toList, by simp, .inl (by decide)⟩
  · rw [h, unsnake_append] at e
    simp only [unsnake, if_neg (lowerAscii_ne (.inl (.inl hc))), lower_upper hc, if_true] at e
    simp only [List.mem_cons, List.not_mem_nil, or_false] at hw
    rcases hw with rfl | rfl | rfl
    · exact .inr ⟨"Array".toList, by simp, .inr ⟨c, _, hc, e.symm⟩⟩
    · exact .inr ⟨"Map".toList, by simp, .inr ⟨c, _, hc, e.symm⟩⟩
    · exact .inr ⟨"Union".toList, by simp, .inr ⟨c, _, hc, e.symm⟩⟩

theorem container_cut {x w r : Str} {c : Char} (hw : 'C' ∉ w) (hc : UpperLetter c)
    (h : x ++ "Container".toList = w ++ c :: r) : x = w ∨ ∃ c r, UpperLetter c ∧ x = w ++ c :: r := by
  rcases List.append_eq_append_iff.1 h with ⟨m, h1, h2⟩ | ⟨m, h1, h2⟩
  · cases m with
    | nil => left; simpa using h1.symm
    | cons a m =>
      have h3 : 'C' = a := by
        have : "Container".toList = 'C' :: "ontainer".toList := rfl
        rw [this] at h2
        simp only [List.cons_append, List.cons.injEq] at h2
        exact h2.1
      subst h3
      exact absurd (by rw [h1]; simp) hw
  · cases m with
    | nil => left; simpa using h1
    | cons a m =>
      simp only [List.cons_append, List.cons.injEq] at h2
      exact .inr ⟨a, m, by rw [← h2.1]; exact hc, h1⟩

theorem typeFile_container {s : Str} (hs : Camel s) (h : TypeFile (toSnake s ++ "_container".toList)) : Reserved s := by
  have e := camel_append_container s hs
  have hmem : '_' ∈ toSnake s ++ "_container".toList := by
    rw [List.mem_append]; exact .inr (by decide)
  rcases h with h | h | ⟨w, hw, c, r, hc, h⟩
  · rw [h] at hmem; exact absurd hmem (by decide)
  · rw [h] at hmem; exact absurd hmem (by decide)
  · rw [h, unsnake_append] at e
    simp only [unsnake, if_neg (lowerAscii_ne (.inl (.inl hc))), lower_upper hc, if_true] at e
    simp only [List.mem_cons, List.not_mem_nil, or_false] at hw
    rcases hw with rfl | rfl | rfl
    · exact .inr ⟨"Array".toList, by simp, container_cut (by decide) hc e.symm⟩
    · exact .inr ⟨"Map".toList, by simp, container_cut (by decide) hc e.symm⟩
    · exact .inr ⟨"Union".toList, by simp, container_cut (by decide) hc e.symm⟩

end Verif
