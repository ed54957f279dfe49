import Verif.Gen.FilesProof
/-
The namespace the command builds depends on the set of documents only.
-/
namespace Verif
open Spec
set_option linter.unusedVariables false

theorem filesDescribe_types {short : Bool} {js ts ds} (h : FilesDescribe short js ts ds) (t : PTy) :
    t ∈ ts ↔ ∃ j ∈ js, ∃ dsj, Describes short "topLevel".toList [] j t dsj := by
  induction h with
  | nil => simp
  | @cons j js u ts ds ds' ha _ ih =>
    rw [List.mem_cons, ih]
    constructor
    · rintro (rfl | ⟨j', hj, x⟩)
      · exact ⟨j, by simp, ds, ha⟩
      · exact ⟨j', by simp [hj], x⟩
    · rintro ⟨j', hj, dsj, hd⟩
      rcases List.mem_cons.1 hj with rfl | hj
      · exact .inl (describes_unique hd ha).1
      · exact .inr ⟨j', hj, dsj, hd⟩

theorem filesDescribe_defs {short : Bool} {js ts ds} (h : FilesDescribe short js ts ds) (d : PDef) :
    d ∈ ds ↔ ∃ j ∈ js, ∃ t dsj, Describes short "topLevel".toList [] j t dsj ∧ d ∈ dsj := by
  induction h with
  | nil => simp
  | @cons j js u ts ds ds' ha _ ih =>
    rw [List.mem_append, ih]
    constructor
    · rintro (hd | ⟨j', hj, x⟩)
      · exact ⟨j, by simp, u, ds, ha, hd⟩
      · exact ⟨j', by simp [hj], x⟩
    · rintro ⟨j', hj, t, dsj, hd, hm⟩
      rcases List.mem_cons.1 hj with rfl | hj
      · obtain ⟨_, rfl⟩ := describes_unique hd ha; exact .inl hm
      · exact .inr ⟨j', hj, t, dsj, hd, hm⟩

theorem filesDescribe_each {short : Bool} {js ts ds} (h : FilesDescribe short js ts ds) :
    ∀ j ∈ js, ∃ t dsj, Describes short "topLevel".toList [] j t dsj := by
  induction h with
  | nil => simp
  | @cons j js u ts ds ds' ha _ ih =>
    intro j' hj
    rcases List.mem_cons.1 hj with rfl | hj
    · exact ⟨u, ds, ha⟩
    · exact ih j' hj

theorem filesDescribe_of {short : Bool} : ∀ {js : List Json},
    (∀ j ∈ js, ∃ t dsj, Describes short "topLevel".toList [] j t dsj) → ∃ ts ds, FilesDescribe short js ts ds
  | [], _ => ⟨[], [], .nil⟩
  | j :: js, h => by
    obtain ⟨t, dsj, hd⟩ := h j (by simp)
    obtain ⟨ts, ds, hf⟩ := filesDescribe_of (js := js) (fun j hj => h j (List.mem_cons_of_mem _ hj))
    exact ⟨_, _, .cons hd hf⟩

/-- What the command has in its namespace. -/
theorem command_holds {short : Bool} {js : List Json} {n : NS} (h : parseCommand short js = .ok n) :
    ∃ ts ds, FilesDescribe short js ts ds ∧ Holds n ds ∧ Tops n ts := by
  unfold parseCommand at h
  split at h
  · cases h
  rename_i n' h1
  split at h
  · cases h
  rename_i h2
  cases h
  obtain ⟨ts, ds, h3, h4, h5, -⟩ := parseFiles_ok (holds_empty short) (ts0 := []) ⟨fun t => by simp⟩ h1
  simp only [List.nil_append] at h4 h5
  exact ⟨ts, ds, h3, h4, h5⟩

mutual
theorem goName_find (nm : Namer) {n n' : NS} (h : ∀ q, n'.find q = n.find q) : ∀ t : PTy, t.goName nm n' = t.goName nm n
  | .prim _ _ => rfl
  | .array t _ => by unfold PTy.goName; rw [goName_find nm h t]
  | .map t _ => by unfold PTy.goName; rw [goName_find nm h t]
  | .union _ ts _ => by unfold PTy.goName; rw [goNames_find nm h ts]
  | .ref q => by unfold PTy.goName; rw [h q]
theorem goNames_find (nm : Namer) {n n' : NS} (h : ∀ q, n'.find q = n.find q) : ∀ ts : List PTy,
    PTy.goNames nm n' ts = PTy.goNames nm n ts
  | [] => rfl
  | t :: ts => by unfold PTy.goNames; rw [goName_find nm h t, goNames_find nm h ts]
end

mutual
theorem files_find (nm : Namer) {n n' : NS} (h : ∀ q, n'.find q = n.find q) : ∀ t : PTy, t.files nm n' = t.files nm n
  | .prim _ _ => rfl
  | .array t j => by unfold PTy.files; rw [goName_find nm h, files_find nm h t]
  | .map t j => by unfold PTy.files; rw [goName_find nm h, files_find nm h t]
  | .union _ ts _ => by unfold PTy.files; rw [goName_find nm h, filesAll_find nm h ts]
  | .ref _ => rfl
theorem filesAll_find (nm : Namer) {n n' : NS} (h : ∀ q, n'.find q = n.find q) : ∀ ts : List PTy,
    PTy.filesAll nm n' ts = PTy.filesAll nm n ts
  | [] => rfl
  | t :: ts => by unfold PTy.filesAll; rw [files_find nm h t, filesAll_find nm h ts]
end

theorem added_find (nm : Namer) (containers : Bool) {n n' : NS} (h : ∀ q, n'.find q = n.find q)
    (hr : ∀ r, r ∈ n'.roots ↔ r ∈ n.roots) (x : Str × Body) :
    x ∈ addedFiles nm containers n' ↔ x ∈ addedFiles nm containers n := by
  have e : ∀ r : Root, r.files nm containers n' = r.files nm containers n := by
    intro r
    cases r with
    | defn d => unfold Root.files; simp only []; rw [filesAll_find nm h]
    | file t => unfold Root.files; simp only []; rw [filesAll_find nm h]
  simp only [addedFiles, List.mem_flatMap, e, hr]

/-- A name is in the package iff it has been added. -/
theorem generated_name (f : Str) : ∀ (es fs : List (Str × Body)),
    (es.foldl addFile fs).lookup f = none ↔ (∀ b, (f, b) ∉ es) ∧ fs.lookup f = none
  | [], fs => by simp
  | (g, c) :: es, fs => by
    rw [List.foldl_cons, generated_name f es, addFile_lookup]
    by_cases hg : f = g
    · subst hg
      simp only [if_true]
      constructor
      · rintro ⟨_, h⟩; cases h
      · rintro ⟨h, _⟩; exact absurd (List.mem_cons_self ..) (h c)
    · simp only [List.mem_cons, Prod.mk.injEq, hg, false_and, false_or, if_false]

end Verif
