import Verif.Spec.Command
import Verif.Gen.FilesProof
/-
Lemmas about the command.
-/
namespace Verif
set_option linter.unusedSimpArgs false
set_option linter.unusedVariables false

theorem readDocs_iff (out : Outside) : ∀ (docs : List Str) (n n' : NS),
    readDocs out docs n = .ok n' ↔ ∃ js, Documents out docs js ∧ parseFiles js n = (.ok (), n')
  | [], n, n' => by
    constructor
    · intro h; cases h; exact ⟨[], rfl, rfl⟩
    · rintro ⟨js, hj, h⟩
      cases hj
      simp only [parseFiles, Prod.mk.injEq, true_and] at h
      rw [h]; rfl
  | f :: fs, n, n' => by
    constructor
    · intro h
      unfold readDocs at h
      split at h
      · cases h
      · rename_i text ht
        split at h
        · cases h
        · rename_i j hj
          split at h
          · cases h
          · rename_i t n1 hn
            obtain ⟨js, h1, h2⟩ := (readDocs_iff out fs n1 n').1 h
            refine ⟨j :: js, ⟨text, j, js, ht, hj, rfl, h1⟩, ?_⟩
            unfold parseFiles
            rw [hn]; exact h2
    · rintro ⟨js, ⟨text, j, js', ht, hj, rfl, hd⟩, h⟩
      unfold parseFiles at h
      unfold readDocs
      rw [ht]; simp only []
      rw [hj]; simp only []
      split at h
      · rename_i hn
        cases h
      · rename_i t n1 hn
        rw [hn]; exact (readDocs_iff out fs n1 n').2 ⟨js', hd, h⟩

/-- Every file with the text the template makes for it. -/
inductive Texts (tm : Body → Option Str) : List (Str × Body) → List (Str × Str) → Prop where
  | nil : Texts tm [] []
  | cons {f b t as es} : tm b = some t → Texts tm as es → Texts tm ((f, b) :: as) ((f, t) :: es)

theorem Texts.filter {tm : Body → Option Str} {as es} (h : Texts tm as es) (f : Str) :
    Texts tm (as.filter (fun e => e.1 ≠ f)) (es.filter (fun e => e.1 ≠ f)) := by
  induction h with
  | nil => exact .nil
  | @cons g b t as es hb _ ih =>
    by_cases hg : g = f
    · simpa [List.filter_cons, hg] using ih
    · have := Texts.cons (f := g) hb ih
      simpa [List.filter_cons, hg] using this

theorem addTexts_texts {tm : Body → Option Str} : ∀ (l : List (Str × Body)) {as es r}, Texts tm as es →
    addTexts tm l es = some r → Texts tm (l.foldl addFile as) r
  | [], as, es, r, h, h1 => by cases h1; exact h
  | (f, b) :: l, as, es, r, h, h1 => by
    unfold addTexts at h1
    split at h1
    · cases h1
    · rename_i t ht
      exact addTexts_texts l (.cons ht (h.filter f)) h1

theorem Texts.lookup {tm : Body → Option Str} {as es} (h : Texts tm as es) (f t : Str) :
    es.lookup f = some t ↔ ∃ b, as.lookup f = some b ∧ tm b = some t := by
  induction h with
  | nil => simp
  | @cons g b u as es hb _ ih =>
    by_cases hg : f = g
    · subst hg
      simp only [List.lookup_cons, beq_self_eq_true, Option.some.injEq]
      constructor
      · rintro rfl; exact ⟨b, rfl, hb⟩
      · rintro ⟨b', rfl, h'⟩; rw [hb] at h'; exact Option.some.inj h'
    · have : (f == g) = false := by simpa using hg
      simp only [List.lookup_cons, this]
      exact ih

theorem Texts.keys {tm : Body → Option Str} {as es} (h : Texts tm as es) : es.map Prod.fst = as.map Prod.fst := by
  induction h with
  | nil => rfl
  | cons _ _ ih => simp [ih]

theorem addFile_nodup {files : List (Str × Body)} (e : Str × Body) (h : (files.map Prod.fst).Nodup) :
    ((addFile files e).map Prod.fst).Nodup := by
  unfold addFile
  simp only [List.map_cons, List.nodup_cons]
  refine ⟨?_, List.Sublist.nodup (List.Sublist.map _ List.filter_sublist) h⟩
  rw [List.mem_map]
  rintro ⟨x, hx, hx'⟩
  rw [List.mem_filter] at hx
  simp at hx
  exact hx.2 hx'

theorem generate_nodup : ∀ (l files : List (Str × Body)), (files.map Prod.fst).Nodup →
    ((l.foldl addFile files).map Prod.fst).Nodup
  | [], _, h => h
  | e :: l, files, h => generate_nodup l _ (addFile_nodup e h)

theorem lookup_iff_mem {α : Type} : ∀ {l : List (Str × α)}, (l.map Prod.fst).Nodup → ∀ f a,
    l.lookup f = some a ↔ (f, a) ∈ l
  | [], _, f, a => by simp
  | (g, b) :: l, h, f, a => by
    simp only [List.map_cons, List.nodup_cons] at h
    by_cases hg : f = g
    · subst hg
      simp only [List.lookup_cons, beq_self_eq_true, Option.some.injEq, List.mem_cons, Prod.mk.injEq, true_and]
      constructor
      · rintro rfl; exact .inl rfl
      · rintro (h1 | h1)
        · exact h1.symm
        · exact absurd (List.mem_map.2 ⟨_, h1, rfl⟩) h.1
    · have : (f == g) = false := by simpa using hg
      simp only [List.lookup_cons, this, List.mem_cons, Prod.mk.injEq, hg, false_and, false_or]
      exact lookup_iff_mem h.2 f a

/-- What `prepare` hands to `WriteFiles` is the output, before formatting. -/
theorem prepare_ok {out : Outside} {fl : Flags} {args : List Str} {files : List (Str × Str)}
    (h : prepare out fl args = .ok files) : (files.map Prod.fst).Nodup ∧
    (∃ nm docs js n, namerOf fl.names = some nm ∧ globAll out.glob args.tail = some docs ∧ Documents out docs js ∧
      parseCommand fl.short js = .ok n ∧ files.map Prod.fst = (generate nm fl.containers n).map Prod.fst) ∧
    ∀ f t, Output out fl args f t ↔ ∃ s, (f, s) ∈ files ∧ out.gofmt s = some t := by
  unfold prepare at h
  split at h
  · cases h
  split at h
  · cases h
  rename_i nm hnm
  split at h
  · cases h
  rename_i docs hdocs
  split at h
  · cases h
  rename_i n hn
  split at h
  · cases h
  rename_i hr
  split at h
  · cases h
  rename_i fs hfs
  cases h
  obtain ⟨js, hjs, hp⟩ := (readDocs_iff out docs _ n).1 hn
  have hcmd : parseCommand fl.short js = .ok n := by
    unfold parseCommand
    rw [hp]; simp only []; rw [hr]
  have ht := addTexts_texts (addedFiles nm fl.containers n) (.nil) hfs
  have hnd : (fs.map Prod.fst).Nodup := by
    rw [ht.keys]; exact generate_nodup _ [] List.nodup_nil
  have hk : (fs.map fun e => (e.1, fileText (codegenComment fl.sources docs) fl.pkg e.2)).map Prod.fst = fs.map Prod.fst := by
    rw [List.map_map]; rfl
  refine ⟨hk ▸ hnd, ⟨nm, docs, js, n, hnm, hdocs, hjs, hcmd, by rw [hk]; exact ht.keys⟩, ?_⟩
  intro f t
  constructor
  · rintro ⟨nm', docs', js', n', b, src, h1, h2, h3, h4, h5, h6, h7⟩
    rw [hnm] at h1; cases h1
    rw [hdocs] at h2; cases h2
    have e := (readDocs_iff out docs { shortUnions := fl.short } n').2 ⟨js', h3, by
      unfold parseCommand at h4
      split at h4
      · cases h4
      · rename_i m hm
        split at h4
        · cases h4
        · cases h4; exact hm⟩
    rw [hn] at e; cases e
    refine ⟨_, List.mem_map.2 ⟨(f, src), (lookup_iff_mem hnd f src).1 ((ht.lookup f src).2 ⟨b, h5, h6⟩), rfl⟩, h7⟩
  · rintro ⟨s, hs, hg⟩
    rw [List.mem_map] at hs
    obtain ⟨⟨f', src⟩, hm, he⟩ := hs
    simp only [Prod.mk.injEq] at he
    obtain ⟨rfl, rfl⟩ := he
    obtain ⟨b, hb, htb⟩ := (ht.lookup f' src).1 ((lookup_iff_mem hnd f' src).2 hm)
    exact ⟨nm, docs, js, n, b, src, hnm, hdocs, hjs, hcmd, hb, htb, hg⟩

theorem set_same (D : Disk) (f t : Str) : D.set f t f = some t := by simp [Disk.set]
theorem set_other (D : Disk) {f g : Str} (t : Str) (h : g ≠ f) : D.set f t g = D g := by simp [Disk.set, h]

theorem saving_other {gofmt : Str → Option Str} {l D D' e} (h : Saving gofmt l D D' e) (f : Str)
    (hf : f ∉ l.map Prod.fst) : D' f = D f := by
  induction h with
  | done => rfl
  | killed => rfl
  | bad _ => rfl
  | refused => rfl
  | broken k _ => exact set_other _ _ (fun e => hf (by simp [e]))
  | torn k _ => exact set_other _ _ (fun e => hf (by simp [e]))
  | next _ _ ih =>
    simp only [List.map_cons, List.mem_cons, not_or] at hf
    rw [ih hf.2]; exact set_other _ _ hf.1

theorem saving_done {gofmt : Str → Option Str} {l D D' e} (h : Saving gofmt l D D' e) (he : e = .exit 0)
    (hl : (l.map Prod.fst).Nodup) : ∀ f s, (f, s) ∈ l → ∃ t, gofmt s = some t ∧ D' f = some t := by
  induction h with
  | done => intro f s h; cases h
  | killed => cases he
  | bad _ => cases he
  | refused => cases he
  | broken k _ => cases he
  | torn k _ => cases he
  | @next g u fs D D' t e hg hw ih =>
    simp only [List.map_cons, List.nodup_cons] at hl
    intro f s hm
    rcases List.mem_cons.1 hm with hm | hm
    · cases hm
      exact ⟨t, hg, by rw [saving_other hw g hl.1, set_same]⟩
    · exact ih he hl.2 f s hm

theorem saving_moment {gofmt : Str → Option Str} {l D D' e} (h : Saving gofmt l D D' e) :
    ∃ cut : Option Str, ∀ f,
      (cut ≠ some f → D' f = D f ∨ ∃ s t, (f, s) ∈ l ∧ gofmt s = some t ∧ D' f = some t) ∧
      (cut = some f → ∃ s t p, (f, s) ∈ l ∧ gofmt s = some t ∧ D' f = some p ∧ p <+: t) := by
  induction h with
  | done => exact ⟨none, fun f => ⟨fun _ => .inl rfl, fun h => by cases h⟩⟩
  | killed => exact ⟨none, fun f => ⟨fun _ => .inl rfl, fun h => by cases h⟩⟩
  | bad _ => exact ⟨none, fun f => ⟨fun _ => .inl rfl, fun h => by cases h⟩⟩
  | refused => exact ⟨none, fun f => ⟨fun _ => .inl rfl, fun h => by cases h⟩⟩
  | @broken g s fs D t k hg =>
    refine ⟨some g, fun f => ⟨fun h => .inl (set_other _ _ (fun e => h (by rw [e]))), fun h => ?_⟩⟩
    cases h
    exact ⟨s, t, _, by simp, hg, set_same _ _ _, List.take_prefix _ _⟩
  | @torn g s fs D t k hg =>
    refine ⟨some g, fun f => ⟨fun h => .inl (set_other _ _ (fun e => h (by rw [e]))), fun h => ?_⟩⟩
    cases h
    exact ⟨s, t, _, by simp, hg, set_same _ _ _, List.take_prefix _ _⟩
  | @next g s fs D D' t e hg hw ih =>
    obtain ⟨cut, ih⟩ := ih
    refine ⟨cut, fun f => ⟨fun h => ?_, fun h => ?_⟩⟩
    · rcases (ih f).1 h with h1 | ⟨s', t', h1, h2, h3⟩
      · by_cases hf : f = g
        · subst hf
          exact .inr ⟨s, t, by simp, hg, by rw [h1, set_same]⟩
        · exact .inl (by rw [h1, set_other _ _ hf])
      · exact .inr ⟨s', t', by simp [h1], h2, h3⟩
    · obtain ⟨s', t', p, h1, h2⟩ := (ih f).2 h
      exact ⟨s', t', p, by simp [h1], h2⟩

theorem saving_all {gofmt : Str → Option Str} : ∀ (l : List (Str × Str)) (D : Disk),
    (∀ f s, (f, s) ∈ l → ∃ t, gofmt s = some t) → ∃ D', Saving gofmt l D D' (.exit 0)
  | [], D, _ => ⟨D, .done⟩
  | (f, s) :: l, D, h => by
    obtain ⟨t, ht⟩ := h f s (by simp)
    obtain ⟨D', hw⟩ := saving_all l (D.set f t) (fun f s hm => h f s (by simp [hm]))
    exact ⟨D', .next ht hw⟩

theorem saving_end {gofmt : Str → Option Str} {l D D' e} (h : Saving gofmt l D D' e) :
    e = .exit 0 ∨ e = .exit 6 ∨ e = .killed := by
  induction h with
  | done => exact .inl rfl
  | killed => exact .inr (.inr rfl)
  | bad _ => exact .inr (.inl rfl)
  | refused => exact .inr (.inl rfl)
  | broken _ _ => exact .inr (.inl rfl)
  | torn _ _ => exact .inr (.inr rfl)
  | next _ _ ih => exact ih

theorem readDocs_error {out : Outside} : ∀ {docs : List Str} {n : NS} {c : Nat},
    readDocs out docs n = .error c → c = 2 ∨ c = 3
  | [], n, c, h => by cases h
  | f :: fs, n, c, h => by
    unfold readDocs at h
    split at h
    · cases h; exact .inl rfl
    · split at h
      · cases h; exact .inr rfl
      · split at h
        · cases h; exact .inr rfl
        · exact readDocs_error h

theorem prepare_error {out : Outside} {fl : Flags} {args : List Str} {c : Nat}
    (h : prepare out fl args = .error c) : 1 ≤ c ∧ c ≤ 5 := by
  unfold prepare at h
  split at h
  · cases h; omega
  split at h
  · cases h; omega
  split at h
  · cases h; omega
  split at h
  · rename_i c' hc
    have := readDocs_error hc
    cases h; omega
  split at h
  · cases h; omega
  split at h
  · cases h; omega
  · cases h

/-! Names without dots. -/

theorem upperAscii_dot {c : Char} (h : c ≠ '.') : upperAscii c ≠ '.' := by
  rw [ne_eq, char_eq_iff] at h ⊢
  rw [upperAscii_toNat]
  have e : '.'.toNat = 46 := rfl
  rw [e] at h ⊢
  split <;> rename_i h' <;> rw [lower_iff] at h' <;> omega

theorem lowerAscii_dot {c : Char} (h : c ≠ '.') : lowerAscii c ≠ '.' := by
  rw [ne_eq, char_eq_iff] at h ⊢
  rw [lowerAscii_toNat]
  have e : '.'.toNat = 46 := rfl
  rw [e] at h ⊢
  split <;> rename_i h' <;> rw [upper_iff] at h' <;> omega

theorem titleFrom_dot : ∀ (s : Str) (p : Char), '.' ∉ s → '.' ∉ titleFrom p s
  | [], _, h => h
  | c :: cs, p, h => by
    simp only [List.mem_cons, not_or] at h
    unfold titleFrom
    simp only [List.mem_cons, not_or]
    refine ⟨?_, titleFrom_dot cs c h.2⟩
    split
    · exact (upperAscii_dot (Ne.symm h.1)).symm
    · exact h.1

theorem spaceRuns_dot : ∀ (s : Str) (b : Bool), '.' ∉ spaceRuns b s
  | [], _ => by simp [spaceRuns]
  | c :: cs, b => by
    unfold spaceRuns
    split
    · split
      · exact spaceRuns_dot cs true
      · simp only [List.mem_cons, not_or]; exact ⟨by decide, spaceRuns_dot cs true⟩
    · rename_i hc
      simp only [List.mem_cons, not_or]
      refine ⟨?_, spaceRuns_dot cs false⟩
      rintro rfl
      exact hc (by decide)

theorem mem_takeWhile_ne {c x : Char} : ∀ {s : Str}, x ∈ s.takeWhile (· ≠ c) → x ≠ c
  | [], h => by simp at h
  | d :: s, h => by
    rw [List.takeWhile_cons] at h
    split at h
    · rename_i hd
      rcases List.mem_cons.1 h with rfl | h
      · simpa using hd
      · exact mem_takeWhile_ne h
    · simp at h

theorem afterLastDot_free (s : Str) : '.' ∉ afterLastDot s := by
  unfold afterLastDot
  intro h
  exact mem_takeWhile_ne (List.mem_reverse.1 h) rfl

theorem trimUnderscore_dot {s : Str} (h : '.' ∉ s) : '.' ∉ trimUnderscore s := by
  unfold trimUnderscore
  intro hm
  have := List.mem_reverse.1 hm
  have := (List.dropWhile_sublist _).mem this
  have := List.mem_reverse.1 this
  exact h ((List.dropWhile_sublist _).mem this)

theorem publicName_dot (nm : Namer) (s : Str) : '.' ∉ nm.publicName s := by
  cases nm with
  | simple => exact titleFrom_dot _ _ (trimUnderscore_dot (afterLastDot_free s))
  | namespaced short =>
    unfold Namer.publicName namespacedName
    intro h
    exact titleFrom_dot _ _ (spaceRuns_dot _ _) (List.mem_filter.1 h).1

theorem prim_dot (p : Prim) : '.' ∉ p.goName := by cases p <;> decide

mutual
theorem goName_dot (nm : Namer) (n : NS) : ∀ t : PTy, '.' ∉ t.goName nm n
  | .prim p _ => prim_dot p
  | .array t _ => by
    unfold PTy.goName
    simp only [List.mem_append, not_or]
    exact ⟨by decide, goName_dot nm n t⟩
  | .map t _ => by
    unfold PTy.goName
    simp only [List.mem_append, not_or]
    exact ⟨by decide, goName_dot nm n t⟩
  | .union _ _ _ => by unfold PTy.goName; exact publicName_dot _ _
  | .ref q => by
    unfold PTy.goName
    split
    · exact publicName_dot _ _
    · simp
end

theorem toSnakeFrom_dot : ∀ (s : Str) (p : Option Char), '.' ∉ s → '.' ∉ toSnakeFrom p s
  | [], _, h => h
  | c :: cs, p, h => by
    simp only [List.mem_cons, not_or] at h
    unfold toSnakeFrom
    simp only [List.mem_append, List.mem_cons, not_or]
    refine ⟨?_, (lowerAscii_dot (Ne.symm h.1)).symm, toSnakeFrom_dot cs _ h.2⟩
    split <;> simp

/-- Names of generated files: no dot but that of the extension. -/
def GoFile (f : Str) : Prop := ∃ base, '.' ∉ base ∧ f = base ++ ".go".toList

theorem fileName_go {s : Str} (h : '.' ∉ s) : GoFile (fileName s) := ⟨_, toSnakeFrom_dot s none h, rfl⟩

theorem containerFileName_go {s : Str} (h : '.' ∉ s) : GoFile (containerFileName s) := by
  refine ⟨toSnake s ++ "_container".toList, ?_, ?_⟩
  · simp only [List.mem_append, not_or]; exact ⟨toSnakeFrom_dot s none h, by decide⟩
  · unfold containerFileName
    rw [List.append_assoc]; rfl

mutual
theorem files_go (nm : Namer) (n : NS) : ∀ (t : PTy), ∀ x ∈ t.files nm n, GoFile x.1
  | .prim p j, x, h => by
    unfold PTy.files at h
    split at h
    · simp only [List.mem_singleton] at h; rw [h]; exact fileName_go (prim_dot p)
    · cases h
  | .array t j, x, h => by
    unfold PTy.files at h
    rcases List.mem_cons.1 h with h | h
    · rw [h]; exact fileName_go (goName_dot _ _ _)
    · exact files_go nm n t x h
  | .map t j, x, h => by
    unfold PTy.files at h
    rcases List.mem_cons.1 h with h | h
    · rw [h]; exact fileName_go (goName_dot _ _ _)
    · exact files_go nm n t x h
  | .union _ ts _, x, h => by
    unfold PTy.files at h
    rcases List.mem_cons.1 h with h | h
    · rw [h]; exact fileName_go (goName_dot _ _ _)
    · exact filesAll_go nm n ts x h
  | .ref _, x, h => by unfold PTy.files at h; cases h
theorem filesAll_go (nm : Namer) (n : NS) : ∀ (ts : List PTy), ∀ x ∈ PTy.filesAll nm n ts, GoFile x.1
  | [], x, h => by unfold PTy.filesAll at h; cases h
  | t :: ts, x, h => by
    unfold PTy.filesAll at h
    rcases List.mem_append.1 h with h | h
    · exact files_go nm n t x h
    · exact filesAll_go nm n ts x h
end

theorem added_go (nm : Namer) (containers : Bool) (n : NS) : ∀ x ∈ addedFiles nm containers n, GoFile x.1 := by
  intro x h
  simp only [addedFiles, List.mem_flatMap] at h
  obtain ⟨r, _, h⟩ := h
  cases r with
  | defn d =>
    simp only [Root.files, List.cons_append, List.mem_cons, List.mem_append] at h
    rcases h with h | h | h
    · rw [h]; exact fileName_go (publicName_dot _ _)
    · unfold PDef.containerFiles at h
      split at h
      · split at h
        · simp only [List.mem_singleton] at h; rw [h]; exact containerFileName_go (publicName_dot _ _)
        · cases h
      · cases h
    · exact filesAll_go nm n _ x h
  | file t => exact filesAll_go nm n _ x h

theorem generate_sub : ∀ (l files : List (Str × Body)), ∀ x ∈ l.foldl addFile files, x ∈ l ∨ x ∈ files
  | [], _, x, h => .inr h
  | e :: l, files, x, h => by
    rcases generate_sub l _ x h with h | h
    · exact .inl (List.mem_cons_of_mem _ h)
    · unfold addFile at h
      rcases List.mem_cons.1 h with h | h
      · exact .inl (by simp [h])
      · exact .inr (List.mem_filter.1 h).1

theorem components_last : ∀ (s : Str), ∀ p ∈ components s, ∀ c ∈ p, c ∈ s
  | [], p, hp, c, hc => by
    simp only [components, List.mem_singleton] at hp
    rw [hp] at hc; cases hc
  | d :: s, p, hp, c, hc => by
    unfold components at hp
    split at hp
    · rcases List.mem_cons.1 hp with rfl | hp
      · cases hc
      · exact List.mem_cons_of_mem _ (components_last s p hp c hc)
    · split at hp
      · rename_i q qs hq
        rcases List.mem_cons.1 hp with rfl | hp
        · rcases List.mem_cons.1 hc with rfl | hc
          · exact List.mem_cons_self ..
          · exact List.mem_cons_of_mem _ (components_last s q (by rw [hq]; exact List.mem_cons_self ..) c hc)
        · exact List.mem_cons_of_mem _ (components_last s p (by rw [hq]; exact List.mem_cons_of_mem _ hp) c hc)
      · rw [List.mem_singleton] at hp
        subst hp
        rw [List.mem_singleton] at hc
        subst hc
        exact List.mem_cons_self ..

theorem components_ne (s : Str) : components s ≠ [] := by
  cases s with
  | nil => simp [components]
  | cons c s => unfold components; split <;> (try split) <;> simp

/-- A part of a path has at most as many dots as the path. -/
theorem components_count (x : Char) : ∀ (s : Str), ∀ p ∈ components s, p.count x ≤ s.count x
  | [], p, hp => by
    simp only [components, List.mem_singleton] at hp
    rw [hp]; exact Nat.le_refl _
  | d :: s, p, hp => by
    unfold components at hp
    split at hp
    · rcases List.mem_cons.1 hp with rfl | hp
      · simp
      · exact Nat.le_trans (components_count x s p hp) (List.count_le_count_cons)
    · split at hp
      · rename_i q qs hq
        rcases List.mem_cons.1 hp with rfl | hp
        · have := components_count x s q (by rw [hq]; exact List.mem_cons_self ..)
          rw [List.count_cons, List.count_cons]; omega
        · exact Nat.le_trans (components_count x s p (by rw [hq]; exact List.mem_cons_of_mem _ hp)) (List.count_le_count_cons)
      · rename_i hq; exact absurd hq (components_ne s)

theorem goFile_inside {f : Str} (h : GoFile f) : "..".toList ∉ components f := by
  obtain ⟨base, hb, rfl⟩ := h
  intro hm
  have := components_count '.' _ _ hm
  rw [List.count_append, List.count_eq_zero.2 hb] at this
  revert this; decide

end Verif
