import Verif.Gen.FileParts
import Verif.Gen.Affixes
import Verif.Gen.CommandProof
import Verif.Props.Names
/-
C104: the names that the files of a generated package declare, read from their text (Spec/GoFile), and whether a name is declared twice, which Go refuses.
-/
set_option autoImplicit false
namespace Verif.Props
open Verif Spec Spec.Go

/-! ### What a file declares -/

/-- The Go name of what a file is for. -/
def bodyName (nm : Namer) (n : NS) : Body → Str
  | .ty t => t.goName nm n
  | .defn d => d.goName nm
  | .container d => d.goName nm

/-- The constants of an enum in the file. -/
def bodySymbols (nm : Namer) : Body → List Str
  | .defn d => match d.kind with
    | .enum syms _ _ => syms.map (symbolGoName nm (d.goName nm))
    | _ => []
  | _ => []

/-- The names in the file of a node with the Go name `x`: for a record and for a union the type, a constructor, two functions that decode and one that encodes; for a record its
fingerprint, for a union a type for its members and a constant for each of them but for the first null; for an enum the type, its constants, a function that encodes and one that
makes a value of a string. Enums, fixeds, arrays, maps and bytes have a wrapper. A container file has a type for readers and two constructors. -/
def declares (nm : Namer) (n : NS) (b : Body) : List Str :=
  let x := bodyName nm n b
  match b with
  | .ty (.prim _ _) => ["Bytes".toList, "BytesWrapper".toList]
  | .ty (.array _ _) => ["write".toList ++ x, x ++ "Wrapper".toList]
  | .ty (.map _ _) => ["write".toList ++ x, x ++ "Wrapper".toList]
  | .ty (.union _ ts _) => (x ++ "TypeEnum".toList) :: unionConsts nm n x ts ++ [x, "write".toList ++ x, "New".toList ++ x, "Deserialize".toList ++ x,
      "Deserialize".toList ++ (x ++ "FromSchema".toList)]
  | .ty (.ref _) => []
  | .defn d => match d.kind with
    | .record _ _ => [x, x ++ "AvroCRC64Fingerprint".toList, "New".toList ++ x, "Deserialize".toList ++ x, "Deserialize".toList ++ (x ++ "FromSchema".toList), "write".toList ++ x]
    | .enum syms _ _ => x :: syms.map (symbolGoName nm x) ++ ["write".toList ++ x, "New".toList ++ x ++ "Value".toList, x ++ "Wrapper".toList]
    | .fixed _ => ["write".toList ++ x, x ++ "Wrapper".toList, x]
  | .container _ => ["New".toList ++ (x ++ "Writer".toList), x ++ "Reader".toList, "New".toList ++ (x ++ "Reader".toList)]

/-- What a file is for is written so that the text can be read: names are legal, texts of documentation have no characters that Go refuses, tags no backquote, and where a default
names an enum's symbol there is a name for it. -/
def Legible (nm : Namer) (n : NS) (k : Nat) : Body → Prop
  | .ty t => NamedTy n t
  | .container d => Dotted d.name.str
  | .defn d => Dotted d.name.str ∧ match d.kind with
    | .record fs doc => (∀ c ∈ doc, forbidden c = false) ∧ (∀ f ∈ fs, Plainly n f) ∧ ReadableDefaults nm n k fs
    | .enum syms doc dv => (∀ c ∈ doc, forbidden c = false) ∧ (∀ s ∈ syms, LegalName s) ∧ (dv = [] ∨ LegalName dv)
    | .fixed _ => True

/-- C104: the text of a generated file is a sequence of tokens, and these are the names that it declares. Missing: documentation and tags with characters that change the text, and
names that are not identifiers. -/
theorem file_declares_partial (nm : Namer) (n : NS) (print : Char → Bool) (hp : Printing print) (hn : LegalFields n) (k : Nat) (schema : Body → List Byte) (b : Body)
    (hb : Legible nm n k b) (text : Str) (h : templateText nm n print k schema b = some text) :
    ∃ us, tokens text = some us ∧ topNames us = declares nm n b := by
  unfold templateText at h
  cases hl : fileDecls nm n print k schema b with
  | none => rw [hl] at h; cases h
  | some l =>
    rw [hl] at h
    cases h
    have key : ∀ {ns : List (List Str)}, Parts l ns → ns.flatten = declares nm n b → ∃ us, tokens (cat l) = some us ∧ topNames us = declares nm n b :=
      fun h e => e ▸ part_file h
    cases b with
    | ty t =>
      cases t with
      | prim p j =>
        simp only [fileDecls] at hl
        split at hl
        · cases hl; exact key bytes_parts rfl
        · cases hl
      | array t j => cases hl; exact key (array_parts nm n hb) (by simp [declares, bodyName, flatten_none, writeName])
      | map t j => cases hl; exact key (map_parts nm n hb) (by simp [declares, bodyName, flatten_none, writeName])
      | union s ts j => cases hl; exact key (union_parts nm n hp _ hb) (by simp [declares, bodyName, flatten_none, writeName, newName, unionEnumType])
      | ref q => cases hl
    | container d => cases hl; exact key (container_parts (publicName_exported nm hb)) rfl
    | defn d =>
      obtain ⟨hd, hb⟩ := hb
      simp only [fileDecls] at hl
      cases hk : d.kind with
      | record fs doc =>
        simp only [hk] at hl hb
        split at hl
        · cases hl
        · split at hl
          · rename_i hr
            cases hl
            exact key (record_parts nm hp hn _ _ hd hk hb.1 hb.2.1 hb.2.2 hr) (by simp [declares, hk, bodyName, writeName, newName])
          · cases hl
      | enum syms doc dv =>
        simp only [hk] at hl hb
        cases hl
        exact key (enum_parts nm n hp hd hk hb.1 hb.2.1 hb.2.2) (by simp [declares, hk, bodyName, flatten_none, writeName, valueName])
      | fixed size =>
        simp only [hk] at hl
        cases hl
        exact key (fixed_parts nm n hd hk) (by simp [declares, hk, bodyName, flatten_none, writeName])

/-! ### Names in a package -/

/-- The names that a text declares in its package. -/
def namesOf (text : Option Str) : List Str := match text with
  | none => []
  | some s => match tokens s with
    | none => []
    | some us => topNames us

/-- The names that the files of a package declare. -/
def packageNames (nm : Namer) (containers : Bool) (n : NS) (print : Char → Bool) (k : Nat) (schema : Body → List Byte) : List Str :=
  (generate nm containers n).flatMap fun f => namesOf (templateText nm n print k schema f.2)

/-- How the names in a file are made. -/
def composed (nm : Namer) (n : NS) (b : Body) : List Composed :=
  let x := bodyName nm n b
  match b with
  | .ty (.prim _ _) => [.name [] "Bytes".toList [], .name [] "Bytes".toList "Wrapper".toList]
  | .ty (.array _ _) => [.name "write".toList x [], .name [] x "Wrapper".toList]
  | .ty (.map _ _) => [.name "write".toList x [], .name [] x "Wrapper".toList]
  | .ty (.union _ ts _) => .member x [] :: ((((ts.map fun t => t.goName nm n).zipIdx).filter fun c => decide (some c.2 ≠ ts.findIdx? nullTy)).map fun c => .member x c.1) ++
      [.name [] x [], .name "write".toList x [], .name "New".toList x [], .name "Deserialize".toList x [], .name "Deserialize".toList x "FromSchema".toList]
  | .ty (.ref _) => []
  | .defn d => match d.kind with
    | .record _ _ => [.name [] x [], .name [] x "AvroCRC64Fingerprint".toList, .name "New".toList x [], .name "Deserialize".toList x [],
        .name "Deserialize".toList x "FromSchema".toList, .name "write".toList x []]
    | .enum syms _ _ => .name [] x [] :: (syms.map fun s => .name [] (symbolGoName nm x s) []) ++
        [.name "write".toList x [], .name "New".toList x "Value".toList, .name [] x "Wrapper".toList]
    | .fixed _ => [.name "write".toList x [], .name [] x "Wrapper".toList, .name [] x []]
  | .container _ => [.name "New".toList x "Writer".toList, .name [] x "Reader".toList, .name "New".toList x "Reader".toList]

theorem consts_eq {α : Type} (f : α → Str) (y : Str) (q : Nat → Bool) : ∀ (ts : List α) (i : Nat),
    (((ts.map fun t => y ++ f t).zipIdx i).filter fun c => q c.2).map (·.1) = (((ts.map f).zipIdx i).filter fun c => q c.2).map fun c => y ++ c.1
  | [], _ => rfl
  | t :: ts, i => by
    simp only [List.map_cons, List.zipIdx_cons, List.filter_cons]
    split
    · rw [List.map_cons, List.map_cons, consts_eq f y q ts (i + 1)]
    · exact consts_eq f y q ts (i + 1)

theorem members_text (nm : Namer) (n : NS) (x : Str) (ts : List PTy) :
    ((((ts.map fun t => t.goName nm n).zipIdx).filter fun c => decide (some c.2 ≠ ts.findIdx? nullTy)).map fun c => Composed.member x c.1).map Composed.text = unionConsts nm n x ts := by
  rw [List.map_map]
  refine Eq.trans ?_ (consts_eq (fun t : PTy => t.goName nm n) (unionEnumType x) (fun i => decide (some i ≠ ts.findIdx? nullTy)) ts 0).symm
  refine List.map_congr_left fun c _ => ?_
  exact (List.append_assoc x betweenNames c.1).symm

theorem union_text (nm : Namer) (n : NS) (ts : List PTy) (x w nw de fs : Str) :
    (Composed.member x [] :: ((((ts.map fun t => t.goName nm n).zipIdx).filter fun c => decide (some c.2 ≠ ts.findIdx? nullTy)).map fun c => Composed.member x c.1) ++
      [Composed.name [] x [], Composed.name w x [], Composed.name nw x [], Composed.name de x [], Composed.name de x fs]).map Composed.text =
    (x ++ betweenNames) :: unionConsts nm n x ts ++ [x, w ++ x, nw ++ x, de ++ x, de ++ (x ++ fs)] := by
  rw [List.map_append, List.map_cons, members_text]
  generalize unionConsts nm n x ts = l
  simp only [List.map_cons, List.map_nil, Composed.text, List.append_nil, List.nil_append]

theorem composed_text (nm : Namer) (n : NS) (b : Body) : (composed nm n b).map Composed.text = declares nm n b := by
  cases b with
  | ty t => cases t with
    | union s ts j =>
      exact union_text nm n ts (bodyName nm n (.ty (.union s ts j))) "write".toList "New".toList "Deserialize".toList "FromSchema".toList
    | _ => simp [composed, declares, Composed.text]
  | defn d =>
    cases hk : d.kind <;> simp [composed, declares, hk, Composed.text, bodyName]
  | container d => simp [composed, declares, Composed.text]

/-- The conditions on the names of a package: they do not look as if they were made from others, the constants of enums are different from each other and from the types, and the
members of a union have different names. -/
structure NamesApart (nm : Namer) (n : NS) (bs : List Body) : Prop where
  plain : ∀ b ∈ bs, Undecorated (bodyName nm n b) ∧ ∀ c ∈ bodySymbols nm b, Undecorated c
  symbols : (bs.flatMap (bodySymbols nm)).Nodup
  types : ∀ b ∈ bs, bodyName nm n b ∉ bs.flatMap (bodySymbols nm)
  members : ∀ s ts j, Body.ty (.union s ts j) ∈ bs → (ts.map fun t => t.goName nm n).Nodup ∧ [] ∉ ts.map fun t => t.goName nm n

theorem composed_proper {nm : Namer} {n : NS} {b : Body} (h : Undecorated (bodyName nm n b)) (hc : ∀ c ∈ bodySymbols nm b, Undecorated c) : ∀ c ∈ composed nm n b, c.Proper := by
  have nw : "New".toList ∈ beforeNames := by decide
  have de : "Deserialize".toList ∈ beforeNames := by decide
  have wr : "write".toList ∈ beforeNames := by decide
  have s1 : "AvroCRC64Fingerprint".toList ∈ behindNames := by decide
  have s2 : "FromSchema".toList ∈ behindNames := by decide
  have s3 : "Wrapper".toList ∈ behindNames := by decide
  have s4 : "Value".toList ∈ behindNames := by decide
  have s5 : "Writer".toList ∈ behindNames := by decide
  have s6 : "Reader".toList ∈ behindNames := by decide
  intro c hcm
  cases b with
  | ty t => cases t with
    | prim p j =>
      have : Undecorated "Bytes".toList := by decide +kernel
      simp only [composed, List.mem_cons, List.not_mem_nil, or_false] at hcm
      rcases hcm with rfl | rfl
      · exact ⟨.inl rfl, this, .inl rfl⟩
      · exact ⟨.inl rfl, this, .inr s3⟩
    | array t j =>
      simp only [composed, List.mem_cons, List.not_mem_nil, or_false] at hcm
      rcases hcm with rfl | rfl
      · exact ⟨.inr wr, h, .inl rfl⟩
      · exact ⟨.inl rfl, h, .inr s3⟩
    | map t j =>
      simp only [composed, List.mem_cons, List.not_mem_nil, or_false] at hcm
      rcases hcm with rfl | rfl
      · exact ⟨.inr wr, h, .inl rfl⟩
      · exact ⟨.inl rfl, h, .inr s3⟩
    | union s ts j =>
      simp only [composed, List.cons_append, List.mem_append, List.mem_cons, List.mem_map, List.not_mem_nil, or_false] at hcm
      rcases hcm with rfl | ⟨m, -, rfl⟩ | rfl | rfl | rfl | rfl | rfl
      · exact h
      · exact h
      · exact ⟨.inl rfl, h, .inl rfl⟩
      · exact ⟨.inr wr, h, .inl rfl⟩
      · exact ⟨.inr nw, h, .inl rfl⟩
      · exact ⟨.inr de, h, .inl rfl⟩
      · exact ⟨.inr de, h, .inr s2⟩
    | ref q => cases hcm
  | container d =>
    simp only [composed, List.mem_cons, List.not_mem_nil, or_false] at hcm
    rcases hcm with rfl | rfl | rfl
    · exact ⟨.inr nw, h, .inr s5⟩
    · exact ⟨.inl rfl, h, .inr s6⟩
    · exact ⟨.inr nw, h, .inr s6⟩
  | defn d =>
    unfold composed at hcm
    cases hk : d.kind with
    | record fs doc =>
      simp only [hk, List.mem_cons, List.not_mem_nil, or_false] at hcm
      rcases hcm with rfl | rfl | rfl | rfl | rfl | rfl
      · exact ⟨.inl rfl, h, .inl rfl⟩
      · exact ⟨.inl rfl, h, .inr s1⟩
      · exact ⟨.inr nw, h, .inl rfl⟩
      · exact ⟨.inr de, h, .inl rfl⟩
      · exact ⟨.inr de, h, .inr s2⟩
      · exact ⟨.inr wr, h, .inl rfl⟩
    | enum syms doc dv =>
      simp only [hk, List.cons_append, List.mem_append, List.mem_cons, List.mem_map, List.not_mem_nil, or_false] at hcm
      simp only [bodySymbols, hk] at hc
      rcases hcm with rfl | ⟨s, hs, rfl⟩ | rfl | rfl | rfl
      · exact ⟨.inl rfl, h, .inl rfl⟩
      · exact ⟨.inl rfl, hc _ (List.mem_map.2 ⟨s, hs, rfl⟩), .inl rfl⟩
      · exact ⟨.inr wr, h, .inl rfl⟩
      · exact ⟨.inr nw, h, .inr s4⟩
      · exact ⟨.inl rfl, h, .inr s3⟩
    | fixed size =>
      simp only [hk, List.mem_cons, List.not_mem_nil, or_false] at hcm
      rcases hcm with rfl | rfl | rfl
      · exact ⟨.inr wr, h, .inl rfl⟩
      · exact ⟨.inl rfl, h, .inr s3⟩
      · exact ⟨.inl rfl, h, .inl rfl⟩

theorem flatMap_same {α β : Type} {f g : α → List β} : ∀ {l : List α}, (∀ x ∈ l, f x = g x) → l.flatMap f = l.flatMap g
  | [], _ => rfl
  | a :: l, h => by rw [List.flatMap_cons, List.flatMap_cons, h a (List.mem_cons_self ..), flatMap_same fun x hx => h x (List.mem_cons_of_mem _ hx)]

/-- What a name in a file is made from: the Go name of what the file is for, or a constant of an enum. -/
theorem composed_base {nm : Namer} {n : NS} {b : Body} {c : Composed} (hb : ∀ p j, b = .ty (.prim p j) → p = .bytes) (h : c ∈ composed nm n b) :
    (∃ p s, c = .name p (bodyName nm n b) s ∧ (p, s) ∈ (match b with
      | .container _ => [("New".toList, "Writer".toList), ([], "Reader".toList), ("New".toList, "Reader".toList)]
      | _ => [([], []), ("write".toList, []), ("New".toList, []), ("Deserialize".toList, []), ("Deserialize".toList, "FromSchema".toList), ([], "Wrapper".toList),
          ([], "AvroCRC64Fingerprint".toList), ("New".toList, "Value".toList)])) ∨
    (∃ m, c = .member (bodyName nm n b) m ∧ ∃ s ts j, b = .ty (.union s ts j)) ∨ (∃ x ∈ bodySymbols nm b, c = .name [] x []) := by
  cases b with
  | ty t => cases t with
    | prim p j =>
      have := hb p j rfl
      subst this
      simp only [composed, List.mem_cons, List.not_mem_nil, or_false] at h
      rcases h with rfl | rfl <;> exact .inl ⟨_, _, rfl, by simp⟩
    | array t j =>
      simp only [composed, List.mem_cons, List.not_mem_nil, or_false] at h
      rcases h with rfl | rfl <;> exact .inl ⟨_, _, rfl, by simp⟩
    | map t j =>
      simp only [composed, List.mem_cons, List.not_mem_nil, or_false] at h
      rcases h with rfl | rfl <;> exact .inl ⟨_, _, rfl, by simp⟩
    | union s ts j =>
      simp only [composed, List.cons_append, List.mem_append, List.mem_cons, List.mem_map, List.not_mem_nil, or_false] at h
      rcases h with rfl | ⟨m, -, rfl⟩ | rfl | rfl | rfl | rfl | rfl
      · exact .inr (.inl ⟨_, rfl, _, _, _, rfl⟩)
      · exact .inr (.inl ⟨_, rfl, _, _, _, rfl⟩)
      all_goals exact .inl ⟨_, _, rfl, by simp⟩
    | ref q => cases h
  | container d =>
    simp only [composed, List.mem_cons, List.not_mem_nil, or_false] at h
    rcases h with rfl | rfl | rfl <;> exact .inl ⟨_, _, rfl, by simp⟩
  | defn d =>
    unfold composed at h
    cases hk : d.kind with
    | record fs doc =>
      simp only [hk, List.mem_cons, List.not_mem_nil, or_false] at h
      rcases h with rfl | rfl | rfl | rfl | rfl | rfl <;> exact .inl ⟨_, _, rfl, by simp⟩
    | enum syms doc dv =>
      simp only [hk, List.cons_append, List.mem_append, List.mem_cons, List.mem_map, List.not_mem_nil, or_false] at h
      rcases h with rfl | ⟨s, hs, rfl⟩ | rfl | rfl | rfl
      · exact .inl ⟨_, _, rfl, by simp⟩
      · refine .inr (.inr ⟨_, ?_, rfl⟩)
        simp only [bodySymbols, hk]
        exact List.mem_map.2 ⟨s, hs, rfl⟩
      all_goals exact .inl ⟨_, _, rfl, by simp⟩
    | fixed size =>
      simp only [hk, List.mem_cons, List.not_mem_nil, or_false] at h
      rcases h with rfl | rfl | rfl <;> exact .inl ⟨_, _, rfl, by simp⟩

/-- The key under which the file is in the package. -/
def bodyKey (nm : Namer) (n : NS) (b : Body) : Str := match b with
  | .container _ => containerFileName (bodyName nm n b)
  | _ => fileName (bodyName nm n b)

/-- A body that a package can have: of the primitive types only bytes has a file. -/
def Filed (b : Body) : Prop := ∀ p j, b = .ty (.prim p j) → p = .bytes

mutual
theorem files_key (nm : Namer) (n : NS) : ∀ (t : PTy), ∀ x ∈ t.files nm n, x.1 = bodyKey nm n x.2 ∧ Filed x.2
  | .prim p j, x, h => by
    simp only [PTy.files] at h
    split at h
    · rename_i hp
      rw [List.mem_singleton] at h
      subst h
      refine ⟨rfl, fun p' j' e => ?_⟩
      cases e
      exact hp
    · cases h
  | .array t j, x, h => by
    simp only [PTy.files, List.mem_cons] at h
    rcases h with rfl | h
    · exact ⟨rfl, fun _ _ e => nomatch e⟩
    · exact files_key nm n t x h
  | .map t j, x, h => by
    simp only [PTy.files, List.mem_cons] at h
    rcases h with rfl | h
    · exact ⟨rfl, fun _ _ e => nomatch e⟩
    · exact files_key nm n t x h
  | .union name ts js, x, h => by
    simp only [PTy.files, List.mem_cons] at h
    rcases h with rfl | h
    · exact ⟨rfl, fun _ _ e => nomatch e⟩
    · exact filesAll_key nm n ts x h
  | .ref _, x, h => by simp only [PTy.files] at h; cases h
theorem filesAll_key (nm : Namer) (n : NS) : ∀ (ts : List PTy), ∀ x ∈ PTy.filesAll nm n ts, x.1 = bodyKey nm n x.2 ∧ Filed x.2
  | [], x, h => by simp only [PTy.filesAll] at h; cases h
  | t :: ts, x, h => by
    simp only [PTy.filesAll, List.mem_append] at h
    exact h.elim (files_key nm n t x) (filesAll_key nm n ts x)
end

theorem generate_key (nm : Namer) (containers : Bool) (n : NS) : ∀ x ∈ generate nm containers n, x.1 = bodyKey nm n x.2 ∧ Filed x.2 := by
  rintro ⟨f, b⟩ h
  rcases generate_sub _ _ _ h with h | h
  · rcases added_cases h with ⟨d, -, rfl, rfl⟩ | ⟨d, -, -, rfl, rfl⟩ | ⟨r, -, h⟩
    · exact ⟨rfl, fun _ _ e => nomatch e⟩
    · exact ⟨rfl, fun _ _ e => nomatch e⟩
    · exact filesAll_key nm n _ _ h
  · cases h

theorem names_nodup (x : Str) {ps : List (Str × Str)} (h : ps.Nodup) : (ps.map fun p => Composed.name p.1 x p.2).Nodup := by
  refine List.pairwise_map.2 (h.imp fun {a b} hne e => hne ?_)
  injection e with e1 _ e2
  exact Prod.ext e1 e2

/-- Within a file no name is made twice. -/
theorem composed_once {nm : Namer} {n : NS} {bs : List Body} (h : NamesApart nm n bs) {b : Body} (hb : b ∈ bs) : (composed nm n b).Nodup := by
  cases b with
  | ty t => cases t with
    | prim p j => exact names_nodup "Bytes".toList (ps := [([], []), ([], "Wrapper".toList)]) (by decide)
    | array t j => exact names_nodup _ (ps := [("write".toList, []), ([], "Wrapper".toList)]) (by decide)
    | map t j => exact names_nodup _ (ps := [("write".toList, []), ([], "Wrapper".toList)]) (by decide)
    | ref q => exact List.nodup_nil
    | union s ts j =>
      obtain ⟨h1, h2⟩ := h.members s ts j hb
      have hl : (((ts.map fun t => t.goName nm n).zipIdx).filter fun c => decide (some c.2 ≠ ts.findIdx? nullTy)).map (·.1) |>.Nodup := by
        refine List.Nodup.sublist (List.Sublist.map _ List.filter_sublist) ?_
        rw [List.zipIdx_map_fst]
        exact h1
      refine List.nodup_append.2 ⟨List.nodup_cons.2 ⟨?_, ?_⟩, ?_, ?_⟩
      · intro hm
        obtain ⟨c, hc, e⟩ := List.mem_map.1 hm
        injection e with _ e
        refine h2 (e ▸ ?_)
        have := List.mem_map_of_mem (f := (·.1)) (List.mem_filter.1 hc).1
        rwa [List.zipIdx_map_fst] at this
      · refine List.pairwise_map.2 ((List.pairwise_map.1 hl).imp fun {a b} hne e => hne ?_)
        injection e
      · exact names_nodup (bodyName nm n (.ty (.union s ts j)))
          (ps := [([], []), ("write".toList, []), ("New".toList, []), ("Deserialize".toList, []), ("Deserialize".toList, "FromSchema".toList)]) (by decide)
      · intro a ha c hc e
        subst e
        have : ∃ m, a = .member (bodyName nm n (.ty (.union s ts j))) m := by
          rcases List.mem_cons.1 ha with rfl | ha
          · exact ⟨_, rfl⟩
          · obtain ⟨c, -, rfl⟩ := List.mem_map.1 ha
            exact ⟨_, rfl⟩
        obtain ⟨m, rfl⟩ := this
        simp only [List.mem_cons, reduceCtorEq, List.not_mem_nil, or_self] at hc
  | container d => exact names_nodup _ (ps := [("New".toList, "Writer".toList), ([], "Reader".toList), ("New".toList, "Reader".toList)]) (by decide)
  | defn d =>
    have hs : (bodySymbols nm (.defn d)).Nodup := (List.pairwise_flatMap.1 h.symbols).1 _ hb
    have ht : bodyName nm n (.defn d) ∉ bodySymbols nm (.defn d) := fun hm => h.types _ hb (List.mem_flatMap.2 ⟨_, hb, hm⟩)
    cases hk : d.kind with
    | record fs doc =>
      simp only [composed, hk]
      exact names_nodup _ (ps := [([], []), ([], "AvroCRC64Fingerprint".toList), ("New".toList, []), ("Deserialize".toList, []), ("Deserialize".toList, "FromSchema".toList),
        ("write".toList, [])]) (by decide)
    | enum syms doc dv =>
      simp only [bodySymbols, hk] at hs ht
      simp only [composed, hk]
      refine List.nodup_append.2 ⟨List.nodup_cons.2 ⟨?_, ?_⟩, ?_, ?_⟩
      · intro hm
        obtain ⟨c, hc, e⟩ := List.mem_map.1 hm
        injection e with _ e
        exact ht (List.mem_map.2 ⟨c, hc, e⟩)
      · refine List.pairwise_map.2 ((List.pairwise_map.1 hs).imp fun {a b} hne e => hne ?_)
        injection e
      · exact names_nodup (bodyName nm n (.defn d)) (ps := [("write".toList, []), ("New".toList, "Value".toList), ([], "Wrapper".toList)]) (by decide)
      · intro a ha c hc e
        subst e
        have : ∃ m, a = .name [] m [] := by
          rcases List.mem_cons.1 ha with rfl | ha
          · exact ⟨_, rfl⟩
          · obtain ⟨c, -, rfl⟩ := List.mem_map.1 ha
            exact ⟨_, rfl⟩
        obtain ⟨m, rfl⟩ := this
        have h1 : ([], []) ∉ [("write".toList, []), ("New".toList, "Value".toList), (([] : Str), "Wrapper".toList)] := by decide
        refine h1 ?_
        have := List.mem_map_of_mem (f := fun c => match c with | .name p _ s => (p, s) | .member _ _ => (['a'], [])) hc
        exact this
    | fixed size =>
      simp only [composed, hk]
      exact names_nodup _ (ps := [("write".toList, []), ([], "Wrapper".toList), ([], [])]) (by decide)

/-- Two files have no name in common. -/
theorem composed_apart {nm : Namer} {n : NS} {b b' : Body} (hb : Filed b) (hb' : Filed b') (hk : bodyKey nm n b ≠ bodyKey nm n b')
    (hs : ∀ x ∈ bodySymbols nm b, ∀ y ∈ bodySymbols nm b', x ≠ y) (h1 : bodyName nm n b ∉ bodySymbols nm b') (h2 : bodyName nm n b' ∉ bodySymbols nm b) :
    ∀ x ∈ composed nm n b, ∀ y ∈ composed nm n b', x ≠ y := by
  rintro c hc c' hc' rfl
  have mixed : ∀ q ∈ [("New".toList, "Writer".toList), (([] : Str), "Reader".toList), ("New".toList, "Reader".toList)],
      q ∉ [([], []), ("write".toList, []), ("New".toList, []), ("Deserialize".toList, []), ("Deserialize".toList, "FromSchema".toList), ([], "Wrapper".toList),
          ([], "AvroCRC64Fingerprint".toList), ("New".toList, "Value".toList)] := by decide
  have h00 : (([] : Str), ([] : Str)) ∉ [("New".toList, "Writer".toList), (([] : Str), "Reader".toList), ("New".toList, "Reader".toList)] := by decide
  rcases composed_base hb hc with ⟨p, s, rfl, hp⟩ | ⟨m, rfl, _, _, _, hu⟩ | ⟨x, hx, rfl⟩ <;>
    rcases composed_base hb' hc' with ⟨p', s', e, hp'⟩ | ⟨m', e, _, _, _, hu'⟩ | ⟨x', hx', e⟩
  · injection e with e1 e2 e3
    subst e1 e3
    cases b <;> cases b' <;> first | exact hk (congrArg fileName e2) | exact hk (congrArg containerFileName e2) | exact mixed _ hp hp' | exact mixed _ hp' hp
  · cases e
  · injection e with e1 e2 e3
    exact h1 (e2 ▸ hx')
  · cases e
  · injection e with e1 e2
    subst hu hu'
    exact hk (congrArg fileName e1)
  · cases e
  · injection e with e1 e2 e3
    exact h2 (e2 ▸ hx)
  · cases e
  · injection e with e1 e2 e3
    exact hs _ hx _ hx' e2

/-- C104: no name is declared twice in a generated package. Missing: packages in which a name looks as if it were made from another, or in which the constant of an enum is the name
of a type, of a constant of another enum or of the same (`suffix_clash`, `reader_clash`, `constant_clash`), where the names do clash. -/
theorem package_names_partial (nm : Namer) (containers : Bool) (n : NS) (print : Char → Bool) (hp : Printing print) (hn : LegalFields n) (k : Nat) (schema : Body → List Byte)
    (hl : ∀ f ∈ generate nm containers n, Legible nm n k f.2) (ha : NamesApart nm n ((generate nm containers n).map (·.2))) :
    (packageNames nm containers n print k schema).Nodup := by
  let g : Str × Body → List Composed := fun f => if (templateText nm n print k schema f.2).isSome then composed nm n f.2 else []
  have hg : ∀ f, ∀ c ∈ g f, c ∈ composed nm n f.2 := by
    intro f c hc
    simp only [g] at hc
    split at hc
    · exact hc
    · cases hc
  have e : packageNames nm containers n print k schema = ((generate nm containers n).flatMap g).map Composed.text := by
    unfold packageNames
    rw [List.map_flatMap]
    refine flatMap_same fun f hf => ?_
    simp only [g]
    cases ht : templateText nm n print k schema f.2 with
    | none => rfl
    | some text =>
      obtain ⟨us, h1, h2⟩ := file_declares_partial nm n print hp hn k schema f.2 (hl f hf) text ht
      simp only [namesOf, h1, h2, Option.isSome_some, if_true, composed_text]
  rw [e]
  have mem : ∀ f ∈ generate nm containers n, f.2 ∈ (generate nm containers n).map (·.2) := fun f hf => List.mem_map_of_mem hf
  refine composed_nodup ?_ (List.pairwise_flatMap.2 ⟨?_, ?_⟩)
  · intro c hc
    obtain ⟨f, hf, hc⟩ := List.mem_flatMap.1 hc
    exact composed_proper (ha.plain _ (mem f hf)).1 (ha.plain _ (mem f hf)).2 c (hg f c hc)
  · intro f hf
    simp only [g]
    split
    · exact composed_once ha (mem f hf)
    · exact List.Pairwise.nil
  · have keys := List.pairwise_map.1 (generate_nodup (addedFiles nm containers n) [] List.nodup_nil)
    have syms := (List.pairwise_flatMap.1 ha.symbols).2
    rw [List.pairwise_map] at syms
    refine (List.Pairwise.and_mem.1 (List.pairwise_and_iff.2 ⟨keys, syms⟩)).imp ?_
    rintro a b ⟨hma, hmb, hk, hs⟩ x hx y hy
    obtain ⟨ka, fa⟩ := generate_key nm containers n a hma
    obtain ⟨kb, fb⟩ := generate_key nm containers n b hmb
    refine composed_apart fa fb (ka ▸ kb ▸ hk) hs ?_ ?_ x (hg a x hx) y (hg b y hy)
    · exact fun hm => ha.types _ (mem a hma) (List.mem_flatMap.2 ⟨_, mem b hmb, hm⟩)
    · exact fun hm => ha.types _ (mem b hmb) (List.mem_flatMap.2 ⟨_, mem a hma, hm⟩)

/-! ### Where names clash -/

/-- The command accepts the files, and the package that it writes declares the name twice. -/
def DeclaredTwice (containers : Bool) (js : List Json) (x : String) : Prop :=
  ∃ n, parseCommand false js = .ok n ∧ ∃ k schema, 1 < (packageNames .simple containers n asciiPrint k schema).count x.toList

theorem twice_of {containers : Bool} {js : List Json} {x : String}
    (h : After false js (fun n => decide (1 < (packageNames .simple containers n asciiPrint 4 fun _ => []).count x.toList)) = true) : DeclaredTwice containers js x := by
  obtain ⟨n, h1, h2⟩ := after_iff h
  exact ⟨n, h1, 4, _, of_decide_eq_true h2⟩

/-- C104 fails for records whose name is another's with a suffix of the templates: `Deserialize…FromSchema`. -/
theorem suffix_clash : DeclaredTwice false [jrecord "Order" "a" (jstr "int"), jrecord "OrderFromSchema" "a" (jstr "int")] "DeserializeOrderFromSchema" :=
  twice_of (by decide +kernel)

/-- C104 fails for a record named as the reader of another's container. -/
theorem reader_clash : DeclaredTwice true [jrecord "Order" "a" (jstr "int"), jrecord "OrderReader" "a" (jstr "int")] "OrderReader" :=
  twice_of (by decide +kernel)

/-- C104 fails for a record named as the constructor of another. -/
theorem constructor_clash : DeclaredTwice false [jrecord "Order" "a" (jstr "int"), jrecord "NewOrder" "a" (jstr "int")] "NewOrder" :=
  twice_of (by decide +kernel)

/-- An enum. -/
def jenum (name : String) (syms : List String) : Json := jobj [("name", jstr name), ("symbols", .arr (syms.map jstr)), ("type", jstr "enum")]

/-- C104 fails for an enum whose constant is the name of a type, for two enums with a constant in common and for an enum with two symbols that differ in the first letter's case. -/
theorem constant_clash :
    DeclaredTwice false [jenum "Suit" ["red"], jfixed "SuitRed"] "SuitRed" ∧
    DeclaredTwice false [jenum "A" ["bC"], jenum "AB" ["C"]] "ABC" ∧
    DeclaredTwice false [jenum "Suit" ["red", "Red"]] "SuitRed" :=
  ⟨twice_of (by decide +kernel), twice_of (by decide +kernel), twice_of (by decide +kernel)⟩

/-! ### An example -/

def suitDef : PDef := ⟨⟨[], "suit".toList⟩, [], .enum ["red".toList, "black".toList] [] "red".toList, []⟩

def shop : NS := { defs := [(sampleDef.name, sampleDef), (suitDef.name, suitDef)], roots := [.defn sampleDef, .defn suitDef] }

theorem shop_dotted : Dotted sampleDef.name.str ∧ Dotted suitDef.name.str :=
  ⟨.cons (p := "com".toList) (s := "shop.order".toList) (by decide +kernel) ⟨[], 'c', "om".toList, rfl, by simp, by decide⟩
    (.cons (p := "shop".toList) (s := "order".toList) (by decide +kernel) ⟨[], 's', "hop".toList, rfl, by simp, by decide⟩
      (.one (by decide +kernel) ⟨[], 'o', "rder".toList, rfl, by simp, by decide⟩)), .one (by decide +kernel) ⟨[], 's', "uit".toList, rfl, by simp, by decide⟩⟩

theorem shop_plainly : ∀ f ∈ [intField "id" "} func init() {\n panic(1) }" "xml:\"id\"", (⟨"note".toList,
    .union [] [.prim .null (.str "null".toList), .prim .string (.str "string".toList)] [], none, [], [], [], []⟩ : PField)], Plainly shop f := by
  intro f hf
  rcases List.mem_cons.1 hf with rfl | hf
  · exact ⟨by decide +kernel, ⟨[], 'i', ['d'], by decide +kernel, by decide, by decide⟩, by simp only [intField, NamedTy], by decide +kernel, by decide +kernel⟩
  · rw [List.mem_singleton] at hf
    subst hf
    exact ⟨by decide +kernel, ⟨[], 'n', "ote".toList, by decide +kernel, by decide, by decide⟩, by simp only [NamedTy, NamedTys, true_or, and_self], by decide +kernel, by decide +kernel⟩

theorem shop_fields : LegalFields shop := by
  intro q d fs doc h hk f hf
  have := NS.find_mem h
  simp only [shop, List.mem_cons, Prod.mk.injEq, List.not_mem_nil, or_false] at this
  rcases this with ⟨-, rfl⟩ | ⟨-, rfl⟩
  · cases hk
    have := shop_plainly f hf
    exact ⟨this.name, this.letter, this.ty⟩
  · cases hk

theorem shop_files : (generate .simple true shop).map (·.2) = [.defn suitDef, .ty (.union [] [.prim .null (.str "null".toList), .prim .string (.str "string".toList)] []),
    .container sampleDef, .defn sampleDef] := by decide +kernel

theorem shop_legible (k : Nat) : ∀ f ∈ generate .simple true shop, Legible .simple shop k f.2 := by
  intro f hf
  have := List.mem_map_of_mem (f := (·.2)) hf
  rw [shop_files] at this
  simp only [List.mem_cons, List.not_mem_nil, or_false] at this
  rcases this with e | e | e | e <;> rw [e]
  · exact ⟨shop_dotted.2, by decide +kernel, by decide +kernel, .inr (by decide +kernel)⟩
  · simp only [Legible, NamedTy, NamedTys, true_or, and_self]
  · exact shop_dotted.1
  · refine ⟨shop_dotted.1, by decide +kernel, shop_plainly, ?_⟩
    intro f hf L hL
    have : f.dflt = none := by
      simp only [List.mem_cons, List.not_mem_nil, or_false] at hf
      rcases hf with rfl | rfl <;> rfl
    simp only [dfltSts, this] at hL
    cases hL
    exact fun s hs => nomatch hs

theorem shop_apart : NamesApart .simple shop ((generate .simple true shop).map (·.2)) := by
  rw [shop_files]
  refine ⟨by decide +kernel, by decide +kernel, by decide +kernel, ?_⟩
  intro s ts j h
  simp only [List.mem_cons, List.not_mem_nil, or_false, reduceCtorEq, false_or, Body.ty.injEq, PTy.union.injEq] at h
  obtain ⟨rfl, rfl, rfl⟩ := h
  decide +kernel

/-- The conditions of `file_declares_partial` and `package_names_partial` met by a record with documentation that looks like code, a union and an enum, with containers. -/
example (k : Nat) (schema : Body → List Byte) : (packageNames .simple true shop asciiPrint k schema).Nodup :=
  package_names_partial .simple true shop asciiPrint asciiPrint_printing shop_fields k schema (shop_legible k) shop_apart

/-- The names, read from the texts of the four files. -/
example : packageNames .simple true shop asciiPrint 4 (fun _ => []) =
    ["Suit", "SuitRed", "SuitBlack", "writeSuit", "NewSuitValue", "SuitWrapper", "UnionNullStringTypeEnum", "UnionNullStringTypeEnumString", "UnionNullString", "writeUnionNullString",
      "NewUnionNullString", "DeserializeUnionNullString", "DeserializeUnionNullStringFromSchema", "NewOrderWriter", "OrderReader", "NewOrderReader", "Order",
      "OrderAvroCRC64Fingerprint", "NewOrder", "DeserializeOrder", "DeserializeOrderFromSchema", "writeOrder"].map String.toList := by decide +kernel

end Verif.Props
