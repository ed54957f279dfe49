import Verif.Spec.GoHeader
import Verif.Go.LexAppend
import Verif.Props.Command
/-
C87: the header and the package clause of generated files.
-/
set_option autoImplicit false
namespace Verif.Props
open Verif Spec Spec.Go

theorem skipBlock_to {r : Str} : ∀ {x : Str}, '/' ∉ x → skipBlock (x ++ '*' :: '/' :: r) = some r
  | [], _ => by simp [skipBlock]
  | c :: x, h => by
    have hx : '/' ∉ x := fun hm => h (List.mem_cons_of_mem _ hm)
    have hh : (x ++ '*' :: '/' :: r).head? ≠ some '/' := by
      cases x with
      | nil => simp
      | cons d x => simpa using fun e : d = '/' => hx (e ▸ List.mem_cons_self ..)
    rw [List.cons_append, skipBlock, if_neg (fun e => hh e.2)]
    exact skipBlock_to hx

theorem sourceLines_cons (f : Str) (fs : List Str) : sourceLines (f :: fs) = "\n *     ".toList ++ (basename f ++ sourceLines fs) := by
  rw [← List.append_assoc]; rfl

theorem skip_line {n : Nat} {d s : Str} (hd : '\n' ∉ d) : skipHeader (n + 2) ('/' :: '/' :: (d ++ '\n' :: s)) = skipHeader n s := by
  rw [skipHeader, if_neg (by decide), if_pos ⟨rfl, rfl⟩]
  have e : ('/' :: (d ++ '\n' :: s)).dropWhile (fun x => decide (x ≠ '\n')) = '\n' :: s :=
    dropWhile_to (d := '/' :: d) (by simp [hd])
  rw [e, skipHeader, if_pos rfl]

theorem skip_block {n : Nat} {x s : Str} (hx : '/' ∉ x) : skipHeader (n + 1) ('/' :: '*' :: (x ++ '*' :: '/' :: s)) = skipHeader n s := by
  rw [skipHeader, if_neg (by decide), if_neg (by simp), if_pos ⟨rfl, rfl⟩, List.tail_cons, skipBlock_to hx, Option.bind_some]

theorem skip_newline {n : Nat} {s : Str} : skipHeader (n + 1) ('\n' :: s) = skipHeader n s := by
  rw [skipHeader, if_pos rfl]

theorem skip_done {n : Nat} {c : Char} {s : Str} (h1 : c ≠ '\n') (h2 : c ≠ '/') : skipHeader (n + 1) (c :: s) = some (c :: s) := by
  rw [skipHeader, if_neg h1, if_neg (fun e => h2 e.1), if_neg (fun e => h2 e.1)]

/-- Behind the header of any file stands its package clause. -/
theorem skip_comment (sources : Bool) (docs : List Str) {c : Char} {s : Str} (h1 : c ≠ '\n') (h2 : c ≠ '/') {n : Nat} (hn : 6 ≤ n) :
    skipHeader n (codegenComment sources docs ++ '\n' :: c :: s) = some (c :: s) := by
  obtain ⟨m, rfl⟩ : ∃ m, n = m + 6 := ⟨n - 6, by omega⟩
  have e0 : fileComment = '/' :: '/' :: " Code generated by github.com/actgardner/gogen-avro/v10. DO NOT EDIT.".toList := by decide +kernel
  have hd : '\n' ∉ " Code generated by github.com/actgardner/gogen-avro/v10. DO NOT EDIT.".toList := by decide +kernel
  unfold codegenComment
  rw [e0]
  revert hd
  generalize " Code generated by github.com/actgardner/gogen-avro/v10. DO NOT EDIT.".toList = d
  intro hd
  cases sources with
  | false =>
    rw [if_neg (by decide), List.cons_append, List.cons_append, skip_line hd]
    exact skip_done h1 h2
  | true =>
    have hx : '/' ∉ "\n * ".toList ++ ((if docs.length = 1 then "SOURCE:".toList else "SOURCES:".toList) ++ sourceLines docs) ++ "\n ".toList := by
      intro h
      rw [List.mem_append, List.mem_append, List.mem_append] at h
      rcases h with (h | h | h) | h
      · exact absurd h (by decide +kernel)
      · revert h; split <;> decide +kernel
      · exact sourceLines_slash docs h
      · exact absurd h (by decide +kernel)
    have e1 : "\n/*\n * ".toList = '\n' :: '/' :: '*' :: "\n * ".toList := by decide +kernel
    have e2 : "\n */".toList = "\n ".toList ++ ['*', '/'] := by decide +kernel
    rw [if_pos rfl, e1, e2]
    revert hx
    generalize "\n * ".toList = a
    generalize "\n ".toList = b
    generalize (if docs.length = 1 then "SOURCE:".toList else "SOURCES:".toList) ++ sourceLines docs = x
    intro hx
    have e : '/' :: '/' :: d ++ ('\n' :: '/' :: '*' :: a) ++ x ++ (b ++ ['*', '/']) ++ '\n' :: c :: s =
        '/' :: '/' :: (d ++ '\n' :: ('/' :: '*' :: ((a ++ x ++ b) ++ '*' :: '/' :: ('\n' :: c :: s)))) := by simp
    rw [e, skip_line hd, skip_block hx, skip_newline]
    exact skip_done h1 h2

theorem any_append_false {s t : Str} (h : s.any forbidden = false) (h' : t.any forbidden = false) : (s ++ t).any forbidden = false := by
  rw [List.any_append, h, h']; rfl

theorem sourceLines_allowed : ∀ docs : List Str, (∀ f ∈ docs, ∀ c ∈ basename f, forbidden c = false) → (sourceLines docs).any forbidden = false
  | [], _ => rfl
  | f :: fs, h => by
    have h0 : "\n *     ".toList.any forbidden = false := by decide +kernel
    rw [sourceLines_cons]
    refine any_append_false h0 (any_append_false ?_ <| sourceLines_allowed fs fun g hg => h g (by simp [hg]))
    rw [List.any_eq_false]
    exact fun c hc => by simp [h f (by simp) c hc]

/-- C87: as Go reads it, a generated file is a package clause with the package's name and then the text of the template: the header makes comments only, whatever the names of the schema files are
(with line ends, quotes or the signs of comments in them), as long as they have no NUL and no byte order mark. -/
theorem header_comments (sources : Bool) (docs : List Str) (hdocs : ∀ f ∈ docs, ∀ c ∈ basename f, forbidden c = false) (pkg : Str) (hne : pkg ≠ [])
    (hpkg : ∀ c ∈ pkg, wordChar c = true) (hkey : pkg ∉ openKeywords) (body : Str) (us : List Tok) (hb : tokens body = some us) :
    sourceTokens (fileText (codegenComment sources docs) pkg body) = some ([w "package", .word pkg, .sign ';'] ++ us) := by
  have hbody : body.any forbidden = false := by
    unfold tokens at hb
    split at hb
    · cases hb
    · rename_i h; simpa using h
  have hp : pkg.any forbidden = false := by
    rw [List.any_eq_false]
    intro c hc
    have hw := hpkg c hc
    intro hf
    have h0 : c.toNat = 0 ∨ c.toNat = 0xFEFF := by simpa [forbidden] using hf
    rcases h0 with h0 | h0
    · have : c = Char.ofNat 0 := by rw [← h0, Char.ofNat_toNat]
      subst this; revert hw; decide
    · have : c = Char.ofNat 0xFEFF := by rw [← h0, Char.ofNat_toNat]
      subst this; revert hw; decide
  have hc : (codegenComment sources docs).any forbidden = false := by
    unfold codegenComment
    split
    · refine any_append_false (any_append_false (by decide +kernel) (any_append_false ?_ (sourceLines_allowed docs hdocs))) (by decide +kernel)
      split <;> decide +kernel
    · decide +kernel
  have hall : (fileText (codegenComment sources docs) pkg body).any forbidden = false := by
    unfold fileText
    exact any_append_false (any_append_false (any_append_false (any_append_false hc (by decide +kernel)) hp) (by decide +kernel)) hbody
  have e : fileText (codegenComment sources docs) pkg body = codegenComment sources docs ++ '\n' :: 'p' :: ("ackage ".toList ++ pkg ++ "\n".toList ++ body) := by
    have e1 : "\npackage ".toList = '\n' :: 'p' :: "ackage ".toList := by decide +kernel
    rw [fileText, e1]
    simp
  have hlen : 6 ≤ (fileText (codegenComment sources docs) pkg body).length + 1 := by
    have e1 : "\npackage ".toList.length = 9 := by decide +kernel
    rw [fileText, List.length_append, List.length_append, List.length_append, List.length_append, e1]
    omega
  rw [sourceTokens, hall, if_neg (by decide)]
  rw [e] at hlen ⊢
  rw [skip_comment sources docs (by decide) (by decide) hlen, Option.bind_some]
  have hends : Tok.ends (.word pkg) = true := by
    simp only [Tok.ends, Bool.not_eq_true']
    rw [← Bool.not_eq_true, List.contains_iff_mem]
    exact hkey
  have hclause : tokens ("package ".toList ++ pkg ++ ['\n']) = some [w "package", .word pkg, .sign ';'] := by
    refine tokens_of ?_ ?_
    · have : ("package ".toList ++ pkg ++ ['\n']).any forbidden = false := any_append_false (any_append_false (by decide +kernel) hp) (by decide +kernel)
      intro c hc
      simpa using (List.any_eq_false.1 this) c hc
    · have e2 : "package ".toList ++ pkg ++ ['\n'] = "package".toList ++ (' ' :: (pkg ++ ['\n'])) := by
        have : "package ".toList = "package".toList ++ [' '] := by decide +kernel
        rw [this]; simp
      rw [e2]
      refine toks_word (by decide +kernel) (by decide +kernel) (by intro c r e; cases e; decide) (toks_space (.inl rfl) ?_)
      refine toks_word hne hpkg (by intro c r e; cases e; decide) ?_
      rw [hends]
      exact toks_newline (b := true) (toks_nil false)
  have e3 : 'p' :: ("ackage ".toList ++ pkg ++ "\n".toList ++ body) = ("package ".toList ++ pkg ++ ['\n']) ++ body := by
    have h1 : "package ".toList = 'p' :: "ackage ".toList := by decide +kernel
    have h2 : "\n".toList = ['\n'] := by decide +kernel
    rw [h1, h2]; simp
  rw [e3]
  exact tokens_cat hclause ⟨_, rfl⟩ hb

/-- File names that try to end the comment. -/
example : sourceTokens (fileText (codegenComment true ["s/*/package evil".toList, "s/\n*".toList, "/a\"`*\n//".toList]) "avro".toList "type A int\n".toList) =
    some [w "package", w "avro", .sign ';', w "type", w "A", w "int", .sign ';'] :=
  header_comments true _ (by decide +kernel) "avro".toList (by decide) (by decide +kernel) (by decide +kernel) _ _ (by decide +kernel)

end Verif.Props
