import Verif.Spec.GoImports
import Verif.Gen.FileParts
/-
The packages that the parts of generated files refer to.
-/
set_option autoImplicit false
namespace Verif
open Spec Spec.Go Props

theorem refers_infix {us vs : List Tok} {x : Str} (h : Refers us x) (hi : us <:+: vs) : Refers vs x := by
  obtain ⟨u, hu, h⟩ := h
  exact ⟨u, hu, h.trans hi⟩

theorem part_infix {ss : List Str} {ns : List (List Str)} (h : Parts ss ns) {s : Str} {us : List Tok} (hs : s ∈ ss) (ht : tokens s = some us) {vs : List Tok}
    (hv : tokens (cat ss) = some vs) : us <:+: vs := by
  induction h generalizing vs with
  | nil => cases hs
  | cons hp hps ih =>
    rename_i s' n ss' ns'
    obtain ⟨us', h1, -⟩ := hp
    obtain ⟨ws, h2, -⟩ := part_file hps
    have e := h1 _ _ h2
    have : cat (s' :: ss') = s' ++ cat ss' := rfl
    rw [this, e] at hv
    cases hv
    rcases List.mem_cons.1 hs with rfl | hs
    · have e' := h1 [] [] rfl
      rw [List.append_nil, ht, List.append_nil] at e'
      cases e'
      exact ⟨[], ws, rfl⟩
    · exact (ih hs h2).trans ⟨us', [], by simp⟩

theorem refers_part {ss : List Str} {ns : List (List Str)} (h : Parts ss ns) {s : Str} {us : List Tok} {x : Str} (hs : s ∈ ss) (ht : tokens s = some us) (hx : Refers us x)
    {vs : List Tok} (hv : tokens (cat ss) = some vs) : Refers vs x := refers_infix hx (part_infix h hs ht hv)

theorem refers_cons {u : Tok} {us : List Tok} {x : Str} (h : Refers us x) : Refers (u :: us) x := refers_infix h ⟨[u], [], by simp⟩
theorem refers_right {us vs : List Tok} {x : Str} (h : Refers vs x) : Refers (us ++ vs) x := refers_infix h ⟨us, [], by simp⟩
theorem refers_left {us vs : List Tok} {x : Str} (h : Refers us x) : Refers (us ++ vs) x := refers_infix h ⟨[], vs, by simp⟩
theorem refers_here {u : Tok} {us : List Tok} {x : Str} (hu : u ≠ .sign '.') : Refers (u :: .word x :: .sign '.' :: us) x := ⟨u, hu, [], us, rfl⟩

/-- A method that returns a `types.Field`. -/
theorem refers_method (m : Spec.GoT.Method) (h : m.result = some (.of "types".toList "Field".toList)) : Refers m.toks "types".toList := by
  unfold Spec.GoT.Method.toks
  rw [h]
  refine refers_cons (refers_cons (refers_cons (refers_right (refers_cons (refers_cons (refers_cons (refers_right ?_)))))))
  exact refers_here (by simp)

theorem refers_used : Refers [w "var", w "_", .sign '=', w "fmt", .sign '.', w "Printf", .sign ';'] "fmt".toList :=
  refers_cons (refers_cons (refers_here (by simp)))

/-- Search for the reference. -/
macro "refer" : tactic => `(tactic| repeat (first | exact refers_here (by simp) | exact refers_here (by decide) | apply refers_cons | apply refers_right))

/-! ### Functions that decode, container files -/

theorem stmt_infix : ∀ {l : List Spec.GoE.St} {s : Spec.GoE.St}, s ∈ l → s.toks <:+: Spec.GoE.stsToks l
  | a :: l, s, h => by
    rcases List.mem_cons.1 h with rfl | h
    · exact ⟨[], _, rfl⟩
    · exact (stmt_infix h).trans ⟨a.toks, [], by simp [Spec.GoE.stsToks]⟩

theorem refers_stmt {f : Spec.GoE.Fn} {s : Spec.GoE.St} {x : Str} (hs : s ∈ f.body) (h : Refers s.toks x) : Refers f.toks x := by
  unfold Spec.GoE.Fn.toks
  exact refers_cons (refers_right (refers_cons (refers_cons (refers_right (refers_cons (refers_cons (refers_left (refers_right (refers_infix h (stmt_infix hs)))))))))) 

theorem refers_eval (first : Bool) (src prog : Spec.GoE.Path) (addr : Bool) (x : Str) : Refers (Spec.GoE.St.eval first src prog addr x).toks "vm".toList := by
  unfold Spec.GoE.St.toks
  exact refers_cons (refers_left (refers_left (refers_right (refers_here (by simp)))))

theorem refers_compile (d : Str) (a b : Spec.GoE.Txt) : Refers (Spec.GoE.St.compile d a b).toks "compiler".toList := by
  unfold Spec.GoE.St.toks
  exact refers_left (refers_cons (refers_cons (refers_cons (refers_cons (refers_here (by simp))))))

theorem refers_openFile (x r : Str) : Refers (Spec.GoE.St.openFile x r).toks "container".toList := by
  unfold Spec.GoE.St.toks
  exact refers_cons (refers_cons (refers_cons (refers_cons (refers_here (by simp)))))

theorem refers_params {f : Spec.GoE.Fn} {p x y : Str} {ps : List (Str × List Tok)} (hf : f.params = (p, [.word x, .sign '.', .word y]) :: ps) : Refers f.toks x := by
  unfold Spec.GoE.Fn.toks
  rw [hf]
  refine refers_cons (refers_right (refers_cons (refers_cons (refers_left ?_))))
  cases ps with
  | nil => exact refers_here (by simp)
  | cons q l => exact refers_here (by simp)

/-! ### JSON methods -/

theorem flatMap_infix {α : Type} {f : α → List Tok} : ∀ {l : List α} {a : α}, a ∈ l → f a <:+: l.flatMap f
  | b :: l, a, h => by
    rw [List.flatMap_cons]
    rcases List.mem_cons.1 h with rfl | h
    · exact ⟨[], _, rfl⟩
    · exact (flatMap_infix h).trans ⟨f b, [], by simp⟩

theorem refers_marshal {r : Str} {ty : GoTy} {body : List Spec.GoJ.MSt} {s : Spec.GoJ.MSt} {x : Str} (hs : s ∈ body) (h : Refers s.toks x) :
    Refers (Spec.GoJ.marshalToks r ty body) x := by
  unfold Spec.GoJ.marshalToks
  exact refers_cons (refers_cons (refers_cons (refers_right (refers_left (refers_infix h (flatMap_infix hs))))))

theorem refers_unmarshal {r : Str} {ty : GoTy} {body : List Spec.GoJ.USt} {s : Spec.GoJ.USt} {x : Str} (hs : s ∈ body) (h : Refers s.toks x) :
    Refers (Spec.GoJ.unmarshalToks r ty body) x := by
  unfold Spec.GoJ.unmarshalToks
  exact refers_cons (refers_cons (refers_cons (refers_right (refers_left (refers_infix h (flatMap_infix hs))))))

theorem refers_retOutput : Refers Spec.GoJ.MSt.retOutput.toks "json".toList := refers_here (by simp [w])
theorem refers_retString : Refers Spec.GoJ.MSt.retString.toks "json".toList := refers_here (by simp [w])
theorem refers_retBytes (b : Bool) : Refers (Spec.GoJ.MSt.retBytes b).toks "util".toList := by
  unfold Spec.GoJ.MSt.toks
  exact refers_left (refers_cons (refers_cons (refers_cons (refers_cons (refers_here (by simp))))))
theorem refers_failure (m : List Byte) : Refers (Spec.GoJ.MSt.fail m).toks "fmt".toList := by
  unfold Spec.GoJ.MSt.toks Spec.GoJ.errorfToks
  exact refers_cons (refers_cons (refers_here (by simp)))
theorem refers_read (x : Str) : Refers (Spec.GoJ.readToks x) "json".toList := by
  unfold Spec.GoJ.readToks
  refer

/-! ### Serializers -/

theorem refers_func {f : Func} {p : Str × GoTy} {x : Str} (hf : p ∈ f.params) (h : Refers (.word p.1 :: p.2.toks) x) : Refers f.toks x := by
  have hc : ∀ {l : List (List Tok)} {a : List Tok}, a ∈ l → a <:+: Go.commas l := by
    intro l
    induction l with
    | nil => intro a h; cases h
    | cons b l ih =>
      intro a h
      cases l with
      | nil => rw [List.mem_singleton] at h; subst h; exact List.infix_refl _
      | cons c l =>
        rcases List.mem_cons.1 h with rfl | h
        · exact ⟨[], _, rfl⟩
        · exact (ih h).trans ⟨b ++ [.sign ','], [], by simp [Go.commas]⟩
  unfold Func.toks
  refine refers_cons (refers_right (refers_cons (refers_cons (refers_left (refers_infix h (hc ?_))))))
  exact List.mem_map.2 ⟨p, hf, rfl⟩

theorem refers_writer (x y z : Str) : Refers (.word x :: (GoTy.of y z).toks) y := refers_here (by simp)

theorem refers_body {f : Func} {x : Str} (h : Refers (stmtsToks f.body) x) : Refers f.toks x := by
  unfold Func.toks
  exact refers_cons (refers_right (refers_cons (refers_cons (refers_right (refers_cons (refers_cons (refers_cons (refers_left h))))))))

theorem refers_array (name : Str) (ty : GoTy) (item : Callee) : Refers (arrayFunc name ty item).toks "vm".toList := by
  refine refers_body ?_
  simp only [arrayFunc, writeFunc, stmtsToks, Stmt.toks, Expr.toks, vmCall, Callee.toks, Go.commas, List.map_cons, List.map_nil, List.cons_append, List.nil_append]
  exact refers_cons (refers_cons (refers_here (by simp)))

theorem refers_map (name : Str) (ty : GoTy) (item : Callee) : Refers (mapFunc name ty item).toks "vm".toList := by
  refine refers_body ?_
  simp only [mapFunc, writeFunc, stmtsToks, Stmt.toks, Expr.toks, vmCall, Callee.toks, Go.commas, List.map_cons, List.map_nil, List.cons_append, List.nil_append]
  exact refers_cons (refers_cons (refers_here (by simp)))

theorem refers_enum (name : Str) : Refers (enumFunc name).toks "vm".toList := by
  refine refers_body ?_
  simp only [enumFunc, writeFunc, stmtsToks, Stmt.toks, Expr.toks, vmCall, Callee.toks, List.cons_append, List.nil_append]
  exact refers_here (by simp [w])

/-! ### The import clause -/

theorem texts_import : ∀ (paths : List Str) (ws : List Tok),
    textsUntil (paths.flatMap (fun p => [.text (bytesOf p), .sign ';']) ++ .sign ')' :: ws) = paths.map bytesOf
  | [], ws => by simp [textsUntil]
  | p :: ps, ws => by simp [textsUntil, texts_import ps ws]

theorem import_paths (paths : List Str) (ws : List Tok) : importPaths (Spec.GoE.importToks paths ++ ws) = paths.map bytesOf := by
  have := texts_import paths (.sign ';' :: ws)
  simpa [importPaths, Spec.GoE.importToks, w] using this

theorem parts_imports {paths : List Str} {ss : List Str} {ns : List (List Str)} (h : Parts (importText paths :: ss) ns) (ht : tokens (importText paths) = some (Spec.GoE.importToks paths))
    {vs : List Tok} (hv : tokens (cat (importText paths :: ss)) = some vs) : importPaths vs = paths.map bytesOf := by
  cases h with
  | cons hp hps =>
    obtain ⟨us', h1, -⟩ := hp
    obtain ⟨ws, h2, -⟩ := part_file hps
    have e := h1 _ _ h2
    have : cat (importText paths :: ss) = importText paths ++ cat ss := rfl
    rw [this, e] at hv
    cases hv
    have e' := h1 [] [] rfl
    rw [List.append_nil, ht, List.append_nil] at e'
    cases e'
    exact import_paths paths ws

end Verif
