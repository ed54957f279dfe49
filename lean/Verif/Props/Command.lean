import Verif.Gen.CommandProof
import Verif.Gen.DocSet
import Verif.Props.Names
import Verif.Props.Parser
/-
Runs of the command gogen-avro (C85-C88).
-/
namespace Verif.Props
open Verif Spec
set_option linter.unusedVariables false

/-! ### C85: ends of a run -/

/-- A run that ends before it writes (bad arguments, documents that are missing, refused or not resolved,
a template that fails) leaves the target directory as it was. -/
theorem stopped_unchanged {out : Outside} {fl : Flags} {args : List Str} {D D' : Disk} {c : Nat}
    (h : Ran out fl args D D' (.exit c)) (h0 : c ≠ 0) (h6 : c ≠ 6) : D' = D := by
  cases h with
  | stopped _ => rfl
  | wrote _ _ hw => rcases saving_end hw with h | h | h <;> cases h <;> contradiction

/-- When the command exits with 0 the directory holds the output, and all other files as before. -/
theorem finished_writes {out : Outside} {fl : Flags} {args : List Str} {D D' : Disk}
    (h : Ran out fl args D D' (.exit 0)) (f : Str) :
    (∀ t, Output out fl args f t → D' f = some t) ∧ ((¬ ∃ t, Output out fl args f t) → D' f = D f) := by
  cases h with
  | stopped hp => have := prepare_error hp; omega
  | @wrote files l _ _ hp hl hw =>
    obtain ⟨hnd, _, ho⟩ := prepare_ok hp
    have hndl : (l.map Prod.fst).Nodup := (List.Perm.nodup_iff (hl.map _)).2 hnd
    refine ⟨fun t ht => ?_, fun hn => ?_⟩
    · obtain ⟨s, hs, hg⟩ := (ho f t).1 ht
      obtain ⟨t', h1, h2⟩ := saving_done hw rfl hndl f s (hl.mem_iff.2 hs)
      rw [hg] at h1; cases h1; exact h2
    · refine saving_other hw f (fun hm => hn ?_)
      rw [List.mem_map] at hm
      obtain ⟨⟨g, s⟩, hm, rfl⟩ := hm
      obtain ⟨t, h1, _⟩ := saving_done hw rfl hndl g s hm
      exact ⟨t, (ho g t).2 ⟨s, hl.mem_iff.1 hm, h1⟩⟩

/-- It exits with 0 only if all documents are accepted and every file of the package is in the output. -/
theorem finished_complete {out : Outside} {fl : Flags} {args : List Str} {D D' : Disk}
    (h : Ran out fl args D D' (.exit 0)) : ∃ nm docs js n, namerOf fl.names = some nm ∧
      globAll out.glob args.tail = some docs ∧ Documents out docs js ∧ parseCommand fl.short js = .ok n ∧
      ∀ x ∈ generate nm fl.containers n, ∃ t, Output out fl args x.1 t := by
  cases h with
  | stopped hp => have := prepare_error hp; omega
  | @wrote files l _ _ hp hl hw =>
    obtain ⟨hnd, ⟨nm, docs, js, n, h1, h2, h3, h4, hk⟩, ho⟩ := prepare_ok hp
    have hndl : (l.map Prod.fst).Nodup := (List.Perm.nodup_iff (hl.map _)).2 hnd
    refine ⟨nm, docs, js, n, h1, h2, h3, h4, fun x hx => ?_⟩
    have : x.1 ∈ files.map Prod.fst := by rw [hk]; exact List.mem_map_of_mem hx
    rw [List.mem_map] at this
    obtain ⟨⟨g, s⟩, hm, hg⟩ := this
    obtain ⟨t, h5, _⟩ := saving_done hw rfl hndl g s (hl.mem_iff.2 hm)
    exact ⟨t, (ho _ t).2 ⟨s, hg ▸ hm, h5⟩⟩

/-- A file belongs to the output with one contents only. -/
theorem output_unique {out : Outside} {fl : Flags} {args : List Str} {files : List (Str × Str)}
    (hp : prepare out fl args = .ok files) {f t t' : Str} (h : Output out fl args f t) (h' : Output out fl args f t') :
    t = t' := by
  obtain ⟨hnd, _, ho⟩ := prepare_ok hp
  obtain ⟨s, hs, hg⟩ := (ho f t).1 h
  obtain ⟨s', hs', hg'⟩ := (ho f t').1 h'
  have e := (lookup_iff_mem hnd f s).2 hs
  rw [(lookup_iff_mem hnd f s').2 hs'] at e
  cases e
  rw [hg] at hg'; exact Option.some.inj hg'

/-- Whenever and however a run ends, killed at any moment or with any failure of the file system: every
file is as it was or is as the output has it, but for one at most, which holds the beginning of
what the output has. Files that do not belong to the output are not touched. -/
theorem any_moment {out : Outside} {fl : Flags} {args : List Str} {D D' : Disk} {e : End}
    (h : Ran out fl args D D' e) : ∃ cut : Option Str, ∀ f,
      (cut ≠ some f → D' f = D f ∨ ∃ t, Output out fl args f t ∧ D' f = some t) ∧
      (cut = some f → ∃ t p, Output out fl args f t ∧ D' f = some p ∧ p <+: t) := by
  cases h with
  | stopped _ => exact ⟨none, fun f => ⟨fun _ => .inl rfl, fun h => by cases h⟩⟩
  | killed => exact ⟨none, fun f => ⟨fun _ => .inl rfl, fun h => by cases h⟩⟩
  | @wrote files l _ _ hp hl hw =>
    obtain ⟨hnd, _, ho⟩ := prepare_ok hp
    obtain ⟨cut, hc⟩ := saving_moment hw
    refine ⟨cut, fun f => ⟨fun h => ?_, fun h => ?_⟩⟩
    · rcases (hc f).1 h with h1 | ⟨s, t, h1, h2, h3⟩
      · exact .inl h1
      · exact .inr ⟨t, (ho f t).2 ⟨s, hl.mem_iff.1 h1, h2⟩, h3⟩
    · obtain ⟨s, t, p, h1, h2, h3, h4⟩ := (hc f).2 h
      exact ⟨t, p, (ho f t).2 ⟨s, hl.mem_iff.1 h1, h2⟩, h3, h4⟩

/-- The order in which the files are written does not matter: two runs that exit with 0 give the same
directory. -/
theorem order_irrelevant {out : Outside} {fl : Flags} {args : List Str} {D D1 D2 : Disk}
    (h1 : Ran out fl args D D1 (.exit 0)) (h2 : Ran out fl args D D2 (.exit 0)) : D1 = D2 := by
  funext f
  by_cases h : ∃ t, Output out fl args f t
  · obtain ⟨t, ht⟩ := h
    rw [(finished_writes h1 f).1 t ht, (finished_writes h2 f).1 t ht]
  · rw [(finished_writes h1 f).2 h, (finished_writes h2 f).2 h]

/-- Running the command again repairs whatever an earlier run, ended in any way, has left: the result is
that of a run on the directory the earlier run found. -/
theorem rerun_repairs {out : Outside} {fl : Flags} {args : List Str} {D D1 D2 D3 : Disk} {e : End}
    (h1 : Ran out fl args D D1 e) (h2 : Ran out fl args D1 D2 (.exit 0)) (h3 : Ran out fl args D D3 (.exit 0)) :
    D2 = D3 := by
  obtain ⟨cut, hc⟩ := any_moment h1
  funext f
  by_cases h : ∃ t, Output out fl args f t
  · obtain ⟨t, ht⟩ := h
    rw [(finished_writes h2 f).1 t ht, (finished_writes h3 f).1 t ht]
  · rw [(finished_writes h2 f).2 h, (finished_writes h3 f).2 h]
    by_cases hf : cut = some f
    · obtain ⟨t, _, ht, _⟩ := (hc f).2 hf; exact absurd ⟨t, ht⟩ h
    · rcases (hc f).1 hf with h' | ⟨t, ht, _⟩
      · exact h'
      · exact absurd ⟨t, ht⟩ h

/-- If nothing fails the command exits with 0. -/
theorem can_finish {out : Outside} {fl : Flags} {args : List Str} {files : List (Str × Str)} (D : Disk)
    (hp : prepare out fl args = .ok files) (hg : ∀ x ∈ files, ∃ t, out.gofmt x.2 = some t) :
    ∃ D', Ran out fl args D D' (.exit 0) := by
  obtain ⟨D', hw⟩ := saving_all (gofmt := out.gofmt) files D (fun f s h => hg _ h)
  exact ⟨D', .wrote hp (.refl _) hw⟩

/-- A failed run does not leave the directory as it was. If gofmt refuses one file, another one may or
may not have been written: that depends on the order in which Go iterates over a map. -/
theorem half_written {out : Outside} {fl : Flags} {args : List Str} {files : List (Str × Str)} (D : Disk)
    (hp : prepare out fl args = .ok files) {f s t g u : Str} (hf : (f, s) ∈ files) (hs : out.gofmt s = some t)
    (hg : (g, u) ∈ files) (hu : out.gofmt u = none) :
    ∃ D1 D2, Ran out fl args D D1 (.exit 6) ∧ Ran out fl args D D2 (.exit 6) ∧ D1 f = some t ∧ D2 = D := by
  have hne : (g, u) ≠ (f, s) := by
    intro e; cases e; rw [hs] at hu; cases hu
  have h1 := List.perm_cons_erase hf
  have h2 : (g, u) ∈ files.erase (f, s) := (List.mem_erase_of_ne hne).2 hg
  have h3 := List.perm_cons_erase h2
  refine ⟨D.set f t, D, ?_, ?_, set_same D f t, rfl⟩
  · exact .wrote hp ((h1.trans (h3.cons _)).symm) (.next hs (.bad hu))
  · exact .wrote hp (List.perm_cons_erase hg).symm (.bad hu)

/-- A document that does not exist is no error: a path that matches nothing is left out, and the
command exits with 0 without having done anything. -/
theorem missing_document_ignored {out : Outside} {fl : Flags} {args : List Str} {nm : Namer} (D : Disk)
    (ha : 2 ≤ args.length) (hn : namerOf fl.names = some nm) (hg : ∀ p ∈ args.tail, out.glob p = some []) :
    Ran out fl args D D (.exit 0) ∧ ∀ D' c, Ran out fl args D D' (.exit c) → c = 0 ∧ D' = D := by
  have hgl : globAll out.glob args.tail = some [] := by
    generalize args.tail = l at hg
    induction l with
    | nil => rfl
    | cons p ps ih =>
      unfold globAll
      rw [hg p (by simp), ih (fun q hq => hg q (by simp [hq]))]; rfl
  have hp : prepare out fl args = .ok [] := by
    unfold prepare
    rw [if_neg (by omega), hn]
    simp only [hgl]
    rfl
  refine ⟨.wrote hp (.refl _) .done, ?_⟩
  intro D' c h
  cases h with
  | stopped h => rw [hp] at h; cases h
  | wrote h hl hw =>
    rw [hp] at h; cases h
    rw [List.perm_nil] at hl
    subst hl
    cases hw
    exact ⟨rfl, rfl⟩

/-! ### C86: where it writes -/

/-- No schema makes the command write outside the target directory, or to anything but a Go file: the
name of a file that a run changes has no part "..", and ends in ".go". -/
theorem written_inside {out : Outside} {fl : Flags} {args : List Str} {D D' : Disk} {e : End}
    (h : Ran out fl args D D' e) {f : Str} (hf : D' f ≠ D f) :
    "..".toList ∉ components f ∧ ".go".toList <:+ f := by
  have : ∃ t, Output out fl args f t := by
    obtain ⟨cut, hc⟩ := any_moment h
    by_cases hcf : cut = some f
    · obtain ⟨t, _, ht, _⟩ := (hc f).2 hcf; exact ⟨t, ht⟩
    · rcases (hc f).1 hcf with h' | ⟨t, ht, _⟩
      · exact absurd h' hf
      · exact ⟨t, ht⟩
  obtain ⟨t, nm, docs, js, n, b, src, _, _, _, _, hl, _⟩ := this
  have hm : (f, b) ∈ generate nm fl.containers n := (lookup_iff_mem (generate_nodup _ [] List.nodup_nil) f b).1 hl
  have hgo : GoFile f := by
    rcases generate_sub _ _ _ hm with h | h
    · exact added_go nm fl.containers n _ h
    · cases h
  exact ⟨goFile_inside hgo, by obtain ⟨base, _, rfl⟩ := hgo; exact List.suffix_append _ _⟩

/-! ### C87: the header -/

theorem basename_slash (s : Str) : '/' ∉ basename s := by
  unfold basename
  intro h
  exact mem_takeWhile_ne (List.mem_reverse.1 h) rfl

theorem sourceLines_slash : ∀ docs : List Str, '/' ∉ sourceLines docs
  | [] => List.not_mem_nil
  | f :: fs => by
    have h : '/' ∉ "\n *     ".toList := by decide +kernel
    have e : sourceLines (f :: fs) = "\n *     ".toList ++ basename f ++ sourceLines fs := rfl
    rw [e]
    generalize "\n *     ".toList = w at h
    rw [List.mem_append, List.mem_append]
    rintro ((h1 | h1) | h1)
    · exact h h1
    · exact basename_slash f h1
    · exact sourceLines_slash fs h1

/-- Whatever the documents are called, the header is the line that marks generated code, alone or
followed by one comment, which ends where it is meant to: what is between its marks has no slash. -/
theorem header_is_comment (sources : Bool) (docs : List Str) : ∃ rest,
    codegenComment sources docs = "// Code generated by github.com/actgardner/gogen-avro/v10. DO NOT EDIT.".toList ++ rest ∧
    (rest = [] ∨ ∃ c, rest = "\n/*".toList ++ c ++ "*/".toList ∧ '/' ∉ c) := by
  show ∃ rest, codegenComment sources docs = fileComment ++ rest ∧ _
  cases sources with
  | false => exact ⟨[], (List.append_nil _).symm, .inl rfl⟩
  | true =>
    have h1 : "\n/*\n * ".toList = "\n/*".toList ++ "\n * ".toList := by decide +kernel
    have h2 : "\n */".toList = "\n ".toList ++ "*/".toList := by decide +kernel
    have h3 : '/' ∉ "\n * ".toList := by decide +kernel
    have h4 : '/' ∉ "\n ".toList := by decide +kernel
    have h5 : '/' ∉ (if docs.length = 1 then "SOURCE:".toList else "SOURCES:".toList) := by split <;> decide +kernel
    have h6 := sourceLines_slash docs
    unfold codegenComment
    rw [if_pos rfl, h1, h2]
    generalize (if docs.length = 1 then "SOURCE:".toList else "SOURCES:".toList) = w at *
    generalize sourceLines docs = l at *
    generalize "\n * ".toList = b at *
    generalize "\n ".toList = e at *
    generalize "\n/*".toList = o at *
    generalize "*/".toList = c at *
    generalize fileComment = fc at *
    refine ⟨o ++ (b ++ (w ++ l) ++ e) ++ c, by simp only [List.append_assoc], .inr ⟨_, rfl, ?_⟩⟩
    simp only [List.mem_append]
    rintro ((h | h | h) | h)
    · exact h3 h
    · exact h5 h
    · exact h6 h
    · exact h4 h

/-- With the flag, every document is named in the header. -/
theorem header_names (docs : List Str) (f : Str) (hf : f ∈ docs) : basename f <:+: codegenComment true docs := by
  have : ∀ docs : List Str, f ∈ docs → basename f <:+: sourceLines docs := by
    intro docs
    induction docs with
    | nil => intro h; cases h
    | cons g gs ih =>
      intro h
      unfold sourceLines
      generalize "\n *     ".toList = w
      rcases List.mem_cons.1 h with rfl | h
      · exact ⟨w, sourceLines gs, rfl⟩
      · exact (ih h).trans (List.suffix_append _ _).isInfix
  refine (this docs hf).trans ?_
  unfold codegenComment
  rw [if_pos rfl]
  generalize "\n/*\n * ".toList = b
  generalize "\n */".toList = e
  generalize (if docs.length = 1 then "SOURCE:".toList else "SOURCES:".toList) = w
  exact ⟨fileComment ++ b ++ w, e, by simp only [List.append_assoc]⟩

/-! ### C88: documents are a set -/

/-- Only which documents are given counts, not their order nor how often: they are accepted or refused
alike, and every name denotes the same definition. -/
theorem documents_are_a_set (short : Bool) (js js' : List Json) (hs : ∀ j, j ∈ js' ↔ j ∈ js) (n : NS)
    (h : parseCommand short js = .ok n) :
    ∃ n', parseCommand short js' = .ok n' ∧ (∀ q, n'.find q = n.find q) ∧ ∀ r, r ∈ n'.roots ↔ r ∈ n.roots := by
  obtain ⟨ts, ds, h1, h2, h3⟩ := command_holds h
  obtain ⟨ts0, ds0, h01, h02, h03⟩ := (command_accepts short js).1 ⟨n, h⟩
  obtain ⟨ts', ds', h4⟩ := filesDescribe_of (short := short) (js := js') (fun j hj => filesDescribe_each h1 j ((hs j).1 hj))
  have hmem0 : ∀ d, d ∈ ds' ↔ d ∈ ds0 := by
    intro d
    rw [filesDescribe_defs h4, filesDescribe_defs h01]; simp only [hs]
  have hmemt0 : ∀ t, t ∈ ts' ↔ t ∈ ts0 := by
    intro t
    rw [filesDescribe_types h4, filesDescribe_types h01]; simp only [hs]
  have hc : Compatible ds' := ⟨fun d hd => h02.1 d ((hmem0 d).1 hd),
    fun d hd d' hd' => h02.2 d ((hmem0 d).1 hd) d' ((hmem0 d').1 hd')⟩
  have hr : CompleteAll ts' ds' := by
    have hk : ∀ q, (∃ d ∈ ds0, KnownAs d q) → ∃ d ∈ ds', KnownAs d q := fun q ⟨d, hd, hk⟩ => ⟨d, (hmem0 d).2 hd, hk⟩
    exact ⟨fun t ht q hq => hk q (h03.1 t ((hmemt0 t).1 ht) q hq),
      fun d hd fs doc hkd f hf q hq => hk q (h03.2 d ((hmem0 d).1 hd) fs doc hkd f hf q hq)⟩
  obtain ⟨n', hn'⟩ := (command_accepts short js').2 ⟨ts', ds', h4, hc, hr⟩
  obtain ⟨ts2, ds2, h5, h6, h7⟩ := command_holds hn'
  have hmem : ∀ d, d ∈ ds2 ↔ d ∈ ds := by
    intro d
    rw [filesDescribe_defs h5, filesDescribe_defs h1]; simp only [hs]
  have hmemt : ∀ t, t ∈ ts2 ↔ t ∈ ts := by
    intro t
    rw [filesDescribe_types h5, filesDescribe_types h1]; simp only [hs]
  refine ⟨n', hn', fun q => ?_, fun r => ?_⟩
  · apply Option.ext
    intro d
    rw [h6.find, h2.find, hmem]
  · cases r with
    | defn d => rw [h6.roots, h2.roots, hmem]
    | file t => rw [h7.iff, h3.iff, hmemt]

/-- The package is the same too, if no two files of it have one name. Without that a later file replaces
an earlier one, and the order counts (`order_decides_package`). -/
theorem package_of_a_set_partial (nm : Namer) (containers short : Bool) (js js' : List Json)
    (hs : ∀ j, j ∈ js' ↔ j ∈ js) (n : NS) (h : parseCommand short js = .ok n)
    (distinct : ∀ f b b', (f, b) ∈ addedFiles nm containers n → (f, b') ∈ addedFiles nm containers n → b = b') :
    ∃ n', parseCommand short js' = .ok n' ∧
      ∀ f, (generate nm containers n').lookup f = (generate nm containers n).lookup f := by
  obtain ⟨n', h1, h2, h3⟩ := documents_are_a_set short js js' hs n h
  have hm := added_find nm containers h2 h3
  refine ⟨n', h1, fun f => ?_⟩
  by_cases hf : ∃ b, (f, b) ∈ addedFiles nm containers n
  · obtain ⟨b, hb⟩ := hf
    unfold generate
    rw [generated_unique (b := b) _ [] (fun b' hb' => distinct f b' b hb' hb) (.inl hb),
      generated_unique (b := b) _ [] (fun b' hb' => distinct f b' b ((hm _).1 hb') hb) (.inl ((hm _).2 hb))]
  · have e1 := (generated_name f (addedFiles nm containers n) []).2 ⟨fun b hb => hf ⟨b, hb⟩, rfl⟩
    have e2 := (generated_name f (addedFiles nm containers n') []).2 ⟨fun b hb => hf ⟨b, (hm _).1 hb⟩, rfl⟩
    unfold generate
    rw [e1, e2]

/-- Two documents that define one name in two namespaces: the file is made from the one given last. -/
theorem order_decides_package : ∃ n n' d d', parseCommand false [jfixed "a.Key", jfixed "b.Key"] = .ok n ∧
    parseCommand false [jfixed "b.Key", jfixed "a.Key"] = .ok n' ∧
    (generate .simple false n).lookup "key.go".toList = some (.defn d) ∧
    (generate .simple false n').lookup "key.go".toList = some (.defn d') ∧ d.name ≠ d'.name := by
  have key : ∀ a b : String, After false [jfixed a, jfixed b] (fun n =>
      match (generate .simple false n).lookup "key.go".toList with
      | some (.defn d) => decide (d.name = parseAvroName [] b.toList)
      | _ => false) = true → ∃ n d, parseCommand false [jfixed a, jfixed b] = .ok n ∧
      (generate .simple false n).lookup "key.go".toList = some (.defn d) ∧ d.name = parseAvroName [] b.toList := by
    intro a b h
    obtain ⟨n, h1, h2⟩ := after_iff h
    split at h2
    · rename_i d hd; exact ⟨n, d, h1, hd, by simpa using h2⟩
    · cases h2
  obtain ⟨n, d, h1, h2, h3⟩ := key "a.Key" "b.Key" (by decide +kernel)
  obtain ⟨n', d', h4, h5, h6⟩ := key "b.Key" "a.Key" (by decide +kernel)
  exact ⟨n, n', d, d', h1, h4, h2, h5, by rw [h3, h6]; decide +kernel⟩

/-- The conditions of `package_of_a_set_partial` met: three documents, one of them given twice. -/
example : ∃ n, parseCommand false [jfixed "shop.Key", jrecord "shop.Order" "key" (jstr "shop.Key")] = .ok n ∧
    (∀ f b b', (f, b) ∈ addedFiles .simple true n → (f, b') ∈ addedFiles .simple true n → b = b') ∧
    ∃ n', parseCommand false [jrecord "shop.Order" "key" (jstr "shop.Key"), jfixed "shop.Key",
      jrecord "shop.Order" "key" (jstr "shop.Key")] = .ok n' ∧
      ∀ f, (generate .simple true n').lookup f = (generate .simple true n).lookup f := by
  obtain ⟨n, h1, h2⟩ := after_iff (short := false) (js := [jfixed "shop.Key", jrecord "shop.Order" "key" (jstr "shop.Key")])
    (p := fun n => (addedFiles .simple true n).all fun x => (addedFiles .simple true n).all fun y =>
      decide (x.1 = y.1 → x.2 = y.2)) (by decide +kernel)
  have hd : ∀ f b b', (f, b) ∈ addedFiles .simple true n → (f, b') ∈ addedFiles .simple true n → b = b' := by
    intro f b b' hb hb'
    have := List.all_eq_true.1 (List.all_eq_true.1 h2 _ hb) _ hb'
    exact of_decide_eq_true this rfl
  exact ⟨n, h1, hd, package_of_a_set_partial .simple true false _ _ (by
    intro j; simp only [List.mem_cons, List.not_mem_nil, or_false]
    constructor
    · rintro (h | h | h)
      · exact .inr h
      · exact .inl h
      · exact .inr h
    · rintro (h | h)
      · exact .inr (.inl h)
      · exact .inl h) n h1 hd⟩

/-! ### A concrete run -/

/-- Two documents, in a directory "s"; gofmt refuses what is made of the second. -/
def sampleOut : Outside where
  glob p := if p = "s/*".toList then some ["s/a.avsc".toList, "s/b.avsc".toList] else some []
  read f := if f = "s/a.avsc".toList then some [1] else if f = "s/b.avsc".toList then some [2] else none
  json t := if t = [1] then some (jfixed "shop.OrderKey") else if t = [2] then some (jrecord "Line" "_1" (jstr "int")) else none
  template nm n b := match b with
    | .defn d => some ("type ".toList ++ d.goName nm)
    | _ => none
  gofmt s := if "Line".toList.isSuffixOf s then none else some s

/-- The text of the first file. -/
def sampleText : Str := codegenComment true ["s/a.avsc".toList, "s/b.avsc".toList] ++ "\npackage avro\ntype OrderKey".toList

theorem sample_header : codegenComment true ["s/a.avsc".toList, "s/b.avsc".toList] =
    "// Code generated by github.com/actgardner/gogen-avro/v10. DO NOT EDIT.\n/*\n * SOURCES:\n *     a.avsc\n *     b.avsc\n */".toList := by
  decide +kernel

theorem sample_prepared : ∃ u, prepare sampleOut {} ["out".toList, "s/*".toList] =
    .ok [("line.go".toList, u), ("order_key.go".toList, sampleText)] ∧ sampleOut.gofmt u = none ∧
    sampleOut.gofmt sampleText = some sampleText := by
  refine ⟨codegenComment true ["s/a.avsc".toList, "s/b.avsc".toList] ++ "\npackage avro\ntype Line".toList, ?_, ?_, ?_⟩ <;>
    decide +kernel

/-- A run that fails and leaves one of two files. -/
example (D : Disk) : ∃ D1 D2, Ran sampleOut {} ["out".toList, "s/*".toList] D D1 (.exit 6) ∧
    Ran sampleOut {} ["out".toList, "s/*".toList] D D2 (.exit 6) ∧ D1 "order_key.go".toList = some sampleText ∧ D2 = D := by
  obtain ⟨u, hp, hu, ht⟩ := sample_prepared
  exact half_written D hp (f := "order_key.go".toList) (s := sampleText) (by simp) ht (g := "line.go".toList) (by simp) hu

/-- The same documents when gofmt takes everything: the command exits with 0. -/
example (D : Disk) : ∃ D', Ran { sampleOut with gofmt := some } {} ["out".toList, "s/*".toList] D D' (.exit 0) := by
  obtain ⟨u, hp, hu, ht⟩ := sample_prepared
  exact can_finish D (files := [("line.go".toList, u), ("order_key.go".toList, sampleText)]) (by rw [← hp]; rfl)
    (fun x _ => ⟨x.2, rfl⟩)

/-- A path that matches nothing. -/
example (D : Disk) : Ran sampleOut {} ["out".toList, "order.avsc".toList] D D (.exit 0) :=
  (missing_document_ignored (nm := .simple) D (by decide) rfl (by
    intro p hp
    simp only [List.tail_cons, List.mem_singleton] at hp
    subst hp; decide)).1

/-- Names with slashes and dots: the file stays below the directory. -/
example : fileName ((PDef.mk (parseAvroName [] "a/../../etc/x".toList) [] (.fixed 1) []).goName .simple) = "/_etc/x.go".toList := by
  decide +kernel

end Verif.Props
