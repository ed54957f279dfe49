import Verif.Gen.FileWalk
/-
Brackets in the tokens of the programs of Spec/MiniGo, GoTarget, GoDefault, GoJson and GoEntry.
-/
set_option autoImplicit false
namespace Verif
open Spec.Go

theorem ty_walk (t : GoTy) (d : Nat) : walk d t.toks = some d := level_ty t d

/-! ### Spec/GoTarget -/

theorem ex_walk : ∀ (e : Spec.GoT.Ex) (d : Nat), walk d e.toks = some d
  | .var x, d => by brackets [Spec.GoT.Ex.toks, ty_walk]
  | .num n, d => by brackets [Spec.GoT.Ex.toks, ty_walk]
  | .nil, d => by brackets [Spec.GoT.Ex.toks, ty_walk]
  | .makeMap ty, d => by brackets [Spec.GoT.Ex.toks, ty_walk]
  | .makeSlice ty, d => by brackets [Spec.GoT.Ex.toks, ty_walk]
  | .call f, d => by brackets [Spec.GoT.Ex.toks, ty_walk]
  | .sel e f, d => by have h := ex_walk e; brackets [Spec.GoT.Ex.toks, ty_walk, h]
  | .star e, d => by have h := ex_walk e; brackets [Spec.GoT.Ex.toks, ty_walk, h]
  | .amp e, d => by have h := ex_walk e; brackets [Spec.GoT.Ex.toks, ty_walk, h]
  | .par e, d => by have h := ex_walk e; brackets [Spec.GoT.Ex.toks, ty_walk, h]
  | .len e, d => by have h := ex_walk e; brackets [Spec.GoT.Ex.toks, ty_walk, h]
  | .pred e, d => by have h := ex_walk e; brackets [Spec.GoT.Ex.toks, ty_walk, h]
  | .lit ty e, d => by have h := ex_walk e; brackets [Spec.GoT.Ex.toks, ty_walk, h]
  | .conv ty e, d => by have h := ex_walk e; brackets [Spec.GoT.Ex.toks, ty_walk, h]
  | .basic ty e, d => by have h := ex_walk e; brackets [Spec.GoT.Ex.toks, ty_walk, h]
  | .cast ty e, d => by have h := ex_walk e; brackets [Spec.GoT.Ex.toks, ty_walk, h]
  | .makeRoom ty e, d => by have h := ex_walk e; brackets [Spec.GoT.Ex.toks, ty_walk, h]
  | .makeKeys e, d => by have h := ex_walk e; brackets [Spec.GoT.Ex.toks, ty_walk, h]
  | .idx e i, d => by have h := ex_walk e; have h' := ex_walk i; brackets [Spec.GoT.Ex.toks, h, h']
  | .eq e i, d => by have h := ex_walk e; have h' := ex_walk i; brackets [Spec.GoT.Ex.toks, h, h']
  | .append e i, d => by have h := ex_walk e; have h' := ex_walk i; brackets [Spec.GoT.Ex.toks, h, h']

mutual
theorem st_walk : ∀ (s : Spec.GoT.St) (d : Nat), walk d s.toks = some d
  | .declare x ty, d => by brackets [Spec.GoT.St.toks, ty_walk]
  | .define x e, d => by brackets [Spec.GoT.St.toks, ex_walk]
  | .assign l e, d => by brackets [Spec.GoT.St.toks, ex_walk]
  | .cond e body, d => by have := sts_walk body d; brackets [Spec.GoT.St.toks, ex_walk, this]
  | .switch e cases, d => by have := cases_walk cases d; brackets [Spec.GoT.St.toks, ex_walk, this]
  | .range x e body, d => by have := sts_walk body d; brackets [Spec.GoT.St.toks, ex_walk, this]
  | .leave, d => by brackets [Spec.GoT.St.toks, ex_walk]
  | .ret e, d => by brackets [Spec.GoT.St.toks, ex_walk]
  | .panic s, d => by brackets [Spec.GoT.St.toks, ex_walk]
  | .copy a b, d => by brackets [Spec.GoT.St.toks, ex_walk]
theorem sts_walk : ∀ (l : List Spec.GoT.St) (d : Nat), walk (d + 1) (Spec.GoT.stsToks l) = some (d + 1)
  | [], d => rfl
  | s :: l, d => by have h := st_walk s; have := sts_walk l d; brackets [Spec.GoT.stsToks, h, this]
theorem cases_walk : ∀ (l : List (Nat × List Spec.GoT.St)) (d : Nat), walk (d + 1) (Spec.GoT.casesToks l) = some (d + 1)
  | [], d => rfl
  | (c, body) :: l, d => by have h := sts_walk body d; have := cases_walk l d; brackets [Spec.GoT.casesToks, h, this]
end

/-- Without the last semicolon. -/
theorem sts_dropLast_walk : ∀ (l : List Spec.GoT.St) (d : Nat), walk (d + 1) (Spec.GoT.stsToks l).dropLast = some (d + 1)
  | [], d => rfl
  | [s], d => by
    have h := st_walk s (d + 1)
    simpa [Spec.GoT.stsToks, List.dropLast_append_of_ne_nil] using h
  | s :: t :: l, d => by
    have h := st_walk s
    have ih := sts_dropLast_walk (t :: l) d
    have hne : Spec.GoT.stsToks (t :: l) ≠ [] := by simp [Spec.GoT.stsToks]
    rw [Spec.GoT.stsToks, List.dropLast_append_of_ne_nil (by simp), List.dropLast_cons_of_ne_nil hne]
    brackets [h, ih]

theorem commasT_walk : ∀ (l : List (List Tok)), (∀ us ∈ l, Level us) → ∀ d, walk d (Spec.GoT.commas l) = some d
  | [], _, d => rfl
  | [a], h, d => h a (by simp) d
  | a :: b :: l, h, d => by
    have h1 := h a (by simp)
    have h2 := commasT_walk (b :: l) (fun us hu => h us (by simp_all)) d
    rw [Spec.GoT.commas, walk_flat d h1]
    brackets [h2]

theorem param_walk (p : Str × GoTy) (d : Nat) : walk d (Spec.GoT.paramToks p) = some d := by
  unfold Spec.GoT.paramToks
  split <;> brackets [ty_walk]

theorem result_walk (r : Option GoTy) (d : Nat) : walk d (Spec.GoT.resultToks r) = some d := by
  cases r <;> brackets [Spec.GoT.resultToks, ty_walk]

theorem method_one (m : Spec.GoT.Method) : One m.toks := by
  have hc := commasT_walk (m.params.map Spec.GoT.paramToks) (by
    intro us hu; obtain ⟨p, -, rfl⟩ := List.mem_map.1 hu; exact param_walk p)
  have hb : ∀ d, walk (d + 1) (if m.short then (Spec.GoT.stsToks m.body).dropLast else Spec.GoT.stsToks m.body) = some (d + 1) := by
    intro d; split
    · exact sts_dropLast_walk _ d
    · exact sts_walk _ d
  have e : m.toks = (w "func" :: .sign '(' :: .word m.recv.1 :: (m.recv.2.toks ++ .sign ')' :: .word m.name :: .sign '(' ::
    (Spec.GoT.commas (m.params.map Spec.GoT.paramToks) ++ .sign ')' :: (Spec.GoT.resultToks m.result ++ .sign '{' ::
    ((if m.short then (Spec.GoT.stsToks m.body).dropLast else Spec.GoT.stsToks m.body) ++ [.sign '}']))))) ++ [.sign ';'] := by
    simp [Spec.GoT.Method.toks]
  rw [e]
  refine one_of ?_
  brackets [ty_walk, hc, result_walk, hb]

/-- A method declares no name in the package. -/
theorem method_names (m : Spec.GoT.Method) : Declares m.toks [] := names_of (method_one m) rfl

theorem methods_names : ∀ (l : List Spec.GoT.Method), Declares (l.flatMap Spec.GoT.Method.toks) []
  | [] => names_nil
  | m :: l => names_append (method_names m) (methods_names l)

/-! ### Spec/MiniGo -/

theorem callee_walk (c : Callee) (d : Nat) : walk d c.toks = some d := by cases c <;> brackets [Callee.toks]

theorem commas_walk : ∀ (l : List (List Tok)), (∀ us ∈ l, Level us) → ∀ d, walk d (commas l) = some d
  | [], _, d => rfl
  | [a], h, d => h a (by simp) d
  | a :: b :: l, h, d => by
    have h1 := h a (by simp)
    have h2 := commas_walk (b :: l) (fun us hu => h us (by simp_all)) d
    rw [commas, walk_flat d h1]
    brackets [h2]

mutual
theorem expr_walk : ∀ (e : Expr) (d : Nat), walk d e.toks = some d
  | .var x, d => by brackets [Expr.toks]
  | .nil, d => by brackets [Expr.toks]
  | .num n, d => by brackets [Expr.toks]
  | .text v, d => by brackets [Expr.toks]
  | .sel e f, d => by have := expr_walk e; brackets [Expr.toks, this]
  | .len e, d => by have := expr_walk e; brackets [Expr.toks, this]
  | .conv t e, d => by have := expr_walk e; brackets [Expr.toks, this]
  | .eq a b, d => by have h := expr_walk a; have := expr_walk b; brackets [Expr.toks, h, this]
  | .ne a b, d => by have h := expr_walk a; have := expr_walk b; brackets [Expr.toks, h, this]
  | .or a b, d => by have h := expr_walk a; have := expr_walk b; brackets [Expr.toks, h, this]
  | .all e, d => by have := expr_walk e; brackets [Expr.toks, this]
  | .call f args, d => by have := commas_walk (exprsToks args) (exprs_walk args); brackets [Expr.toks, callee_walk, this]
theorem exprs_walk : ∀ (l : List Expr), ∀ us ∈ exprsToks l, Level us
  | [], us, h => by cases h
  | e :: l, us, h => by
    rw [exprsToks, List.mem_cons] at h
    rcases h with h | h
    · rw [h]; exact expr_walk e
    · exact exprs_walk l us h
end

theorem words_walk (xs : List Str) (d : Nat) : walk d (commas (xs.map fun x => [.word x])) = some d :=
  commas_walk _ (by intro us hu; obtain ⟨x, -, rfl⟩ := List.mem_map.1 hu; intro d; rfl) d

mutual
theorem stmt_walk : ∀ (s : Stmt) (d : Nat), walk (d + 1) s.toks = some (d + 1)
  | .declare x t, d => by brackets [Stmt.toks]
  | .define xs e, d => by brackets [Stmt.toks, words_walk, expr_walk]
  | .assign xs e, d => by brackets [Stmt.toks, words_walk, expr_walk]
  | .cond e body, d => by have := stmts_walk body; brackets [Stmt.toks, expr_walk, this]
  | .range k v e body, d => by have := stmts_walk body; brackets [Stmt.toks, expr_walk, this]
  | .switch e cases, d => by have := caseStmts_walk cases; brackets [Stmt.toks, expr_walk, this]
  | .ret e, d => by brackets [Stmt.toks, expr_walk]
theorem stmts_walk : ∀ (l : List Stmt) (d : Nat), walk (d + 1) (stmtsToks l) = some (d + 1)
  | [], d => rfl
  | s :: l, d => by have h := stmt_walk s d; have := stmts_walk l d; brackets [stmtsToks, h, this]
theorem caseStmts_walk : ∀ (l : List (Expr × List Stmt)) (d : Nat), walk (d + 1) (casesToks l) = some (d + 1)
  | [], d => rfl
  | (c, body) :: l, d => by have h := stmts_walk body d; have := caseStmts_walk l d; brackets [casesToks, expr_walk, h, this]
end

theorem func_one (f : Func) : One f.toks := by
  obtain ⟨recv, name, params, body⟩ := f
  have hc := commas_walk (params.map fun p => .word p.1 :: p.2.toks) (by
    intro us hu; obtain ⟨p, -, rfl⟩ := List.mem_map.1 hu; intro d; exact ty_walk p.2 d)
  cases recv with
  | none =>
    have e : (Func.mk none name params body).toks = (w "func" :: .word name :: .sign '(' :: (commas (params.map fun p => .word p.1 :: p.2.toks) ++
      .sign ')' :: w "error" :: .sign '{' :: (stmtsToks body ++ [.sign '}']))) ++ [.sign ';'] := by simp [Func.toks]
    rw [e]
    refine one_of ?_
    brackets [hc, stmts_walk]
  | some r =>
    have e : (Func.mk (some r) name params body).toks = (w "func" :: .sign '(' :: .word r.1 :: (r.2.toks ++ .sign ')' :: .word name :: .sign '(' ::
      (commas (params.map fun p => .word p.1 :: p.2.toks) ++ .sign ')' :: w "error" :: .sign '{' :: (stmtsToks body ++ [.sign '}'])))) ++ [.sign ';'] := by
      simp [Func.toks]
    rw [e]
    refine one_of ?_
    brackets [hc, stmts_walk, ty_walk]

/-- A function declares its name, a method none. -/
theorem func_names (f : Func) : Declares f.toks (match f.recv with
    | none => [f.name]
    | some _ => []) := by
  refine names_of (func_one f) ?_
  obtain ⟨recv, name, params, body⟩ := f
  cases recv <;> rfl

/-! ### Spec/GoEntry -/

theorem txt_walk (t : Spec.GoE.Txt) (d : Nat) : walk d t.toks = some d := by cases t <;> brackets [Spec.GoE.Txt.toks]
theorem path_walk (t : Spec.GoE.Path) (d : Nat) : walk d t.toks = some d := by cases t <;> brackets [Spec.GoE.Path.toks]
theorem bytesOfToks_walk (t : Spec.GoE.Txt) (d : Nat) : walk d (Spec.GoE.bytesOfToks t) = some d := by brackets [Spec.GoE.bytesOfToks, txt_walk]

theorem entry_st_walk (s : Spec.GoE.St) (d : Nat) : walk (d + 1) s.toks = some (d + 1) := by
  cases s with
  | eval first src prog addr x => cases first <;> cases addr <;> brackets [Spec.GoE.St.toks, path_walk, if_true, if_false, Bool.false_eq_true]
  | _ => brackets [Spec.GoE.St.toks, txt_walk, bytesOfToks_walk]

theorem entry_sts_walk : ∀ (l : List Spec.GoE.St) (d : Nat), walk (d + 1) (Spec.GoE.stsToks l) = some (d + 1)
  | [], d => rfl
  | s :: l, d => by have := entry_sts_walk l d; brackets [Spec.GoE.stsToks, entry_st_walk, this]

theorem entry_params_walk : ∀ (l : List (Str × List Tok)), (∀ p ∈ l, Level p.2) → ∀ d, walk d (Spec.GoE.paramsToks l) = some d
  | [], _, d => rfl
  | [p], h, d => h p (by simp) d
  | p :: q :: l, h, d => by
    have h1 := h p (by simp)
    have h2 := entry_params_walk (q :: l) (fun us hu => h us (by simp_all)) d
    rw [Spec.GoE.paramsToks, walk_word, walk_flat d h1]
    brackets [h2]

theorem fn_one (f : Spec.GoE.Fn) (hp : ∀ p ∈ f.params, Level p.2) (hr : Level f.result) : One f.toks := by
  obtain ⟨recv, name, params, result, body⟩ := f
  have hc := entry_params_walk params hp
  have hres : ∀ d, walk d result = some d := hr
  cases recv with
  | none =>
    have e : (Spec.GoE.Fn.mk none name params result body).toks = (w "func" :: .word name :: .sign '(' :: (Spec.GoE.paramsToks params ++ .sign ')' :: .sign '(' :: (result ++
      [.sign ',', w "error", .sign ')', .sign '{'] ++ Spec.GoE.stsToks body ++ [.sign '}']))) ++ [.sign ';'] := by simp [Spec.GoE.Fn.toks, Spec.GoE.recvToks]
    rw [e]
    refine one_of ?_
    brackets [hc, hres, entry_sts_walk]
  | some r =>
    have e : (Spec.GoE.Fn.mk (some r) name params result body).toks = (w "func" :: .sign '(' :: .word r.1 :: .word r.2 :: .sign ')' :: .word name :: .sign '(' ::
      (Spec.GoE.paramsToks params ++ .sign ')' :: .sign '(' :: (result ++
      [.sign ',', w "error", .sign ')', .sign '{'] ++ Spec.GoE.stsToks body ++ [.sign '}']))) ++ [.sign ';'] := by simp [Spec.GoE.Fn.toks, Spec.GoE.recvToks]
    rw [e]
    refine one_of ?_
    brackets [hc, hres, entry_sts_walk]

theorem fn_names (f : Spec.GoE.Fn) (hp : ∀ p ∈ f.params, Level p.2) (hr : Level f.result) : Declares f.toks (match f.recv with
    | none => [f.name]
    | some _ => []) := by
  refine names_of (fn_one f hp hr) ?_
  obtain ⟨recv, name, params, result, body⟩ := f
  cases recv <;> rfl

theorem import_one (paths : List Str) : One (Spec.GoE.importToks paths) := by
  have h : ∀ d, walk (d + 1) (paths.flatMap fun p => [Tok.text (bytesOf p), .sign ';']) = some (d + 1) := fun d =>
    within_flatMap (fun p _ d => by brackets []) d
  have e : Spec.GoE.importToks paths = ([w "import", .sign '('] ++ paths.flatMap (fun p => [Tok.text (bytesOf p), .sign ';']) ++ [.sign ')']) ++ [.sign ';'] := by
    simp [Spec.GoE.importToks]
  rw [e]
  refine one_of ?_
  brackets [h]

theorem import_names (paths : List Str) : Declares (Spec.GoE.importToks paths) [] := names_of (import_one paths) rfl

/-! ### Spec/GoDecl -/

theorem members_walk (ms : List Member) (d : Nat) : walk (d + 1) (ms.flatMap Member.toks) = some (d + 1) := by
  refine within_flatMap (fun m _ d => ?_) d
  obtain ⟨n, t, tag⟩ := m
  cases tag <;> brackets [Member.toks, ty_walk, Option.map_none, Option.map_some, Option.toList_none, Option.toList_some]

theorem struct_one (name : Str) (ms : List Member) : One (structToks name ms) := by
  have e : structToks name ms = (w "type" :: .word name :: w "struct" :: .sign '{' :: (ms.flatMap Member.toks ++ [.sign '}'])) ++ [.sign ';'] := by simp [structToks]
  rw [e]
  refine one_of ?_
  brackets [members_walk]

theorem struct_names (name : Str) (ms : List Member) : Declares (structToks name ms) [name] := names_of (struct_one name ms) rfl

theorem const_one (name : Str) (v : List Byte) : One (constToks name v) := one_of (us := [w "const", .word name, .sign '=', .text v]) (by brackets [])

theorem const_names (name : Str) (v : List Byte) : Declares (constToks name v) [name] := names_of (const_one name v) rfl

theorem constMethod_one (type : List Tok) (ht : Level type) (name : Str) (v : List Byte) : One (methodToks type name v) := by
  have e : methodToks type name v = ([w "func", .sign '(', w "r"] ++ type ++ [.sign ')', .word name, .sign '(', .sign ')', w "string", .sign '{', w "return",
    .text v, .sign ';', .sign '}']) ++ [.sign ';'] := by simp [methodToks]
  rw [e]
  refine one_of ?_
  have ht : ∀ d, walk d type = some d := ht
  brackets [ht]

theorem constMethod_names (type : List Tok) (ht : Level type) (name : Str) (v : List Byte) : Declares (methodToks type name v) [] := names_of (constMethod_one type ht name v) rfl

theorem group_first : ∀ (name : Str) (cs : List (Str × Nat)),
    (cut 0 [] (cs.flatMap (fun c => [Tok.word c.1, .word name, .sign '=', number c.2, .sign ';']) ++ [.sign ')', .sign ';'])).filterMap firstWord = cs.map (·.1)
  | _, [] => rfl
  | name, c :: cs => by
    have ih := group_first name cs
    have e : ∀ r : List Tok, cut 0 [] ([Tok.word c.1, .word name, .sign '=', number c.2, .sign ';'] ++ r) =
      [Tok.word c.1, .word name, .sign '=', number c.2, .sign ';'] :: cut 0 [] r := fun r => rfl
    rw [List.flatMap_cons, List.append_assoc, e, List.filterMap_cons]
    simp only [firstWord, List.map_cons, ih]

theorem enum_names (name base : Str) (cs : List (Str × Nat)) : Declares (enumToks name base cs) (name :: cs.map (·.1)) := by
  have e : enumToks name base cs = ([w "type", .word name, .word base] ++ [.sign ';']) ++ ((w "const" :: .sign '(' ::
    (cs.flatMap (fun c => [Tok.word c.1, .word name, .sign '=', number c.2, .sign ';']) ++ [.sign ')'])) ++ [.sign ';']) := by simp [enumToks]
  rw [e]
  refine names_append (ns := [name]) (names_one (by brackets []) rfl) (names_one ?_ ?_)
  · have h : ∀ d, walk (d + 1) (cs.flatMap (fun c => [Tok.word c.1, .word name, .sign '=', number c.2, .sign ';'])) = some (d + 1) := fun d =>
      within_flatMap (fun c _ d => by brackets []) d
    brackets [h]
  · rw [← group_first name cs]
    simp [declared, w]

/-! ### Spec/GoDefault -/

/-- Numbers have no brackets. -/
def PlainNumber : Spec.GoD.St → Prop
  | .assign _ (.num ts) => Level ts
  | _ => True

theorem place_walk (l : List Spec.GoD.Seg) (d : Nat) : walk d (Spec.GoD.placeToks l) = some d := by
  have h : ∀ d, walk d (l.flatMap Spec.GoD.Seg.toks) = some d := level_flatMap (fun s _ d => by cases s <;> brackets [Spec.GoD.Seg.toks])
  brackets [Spec.GoD.placeToks, h]

theorem bytesToks_walk (bs : List Byte) (d : Nat) : walk d (Spec.GoD.bytesToks bs) = some d := by brackets [Spec.GoD.bytesToks]

theorem dflt_st_walk {s : Spec.GoD.St} (h : PlainNumber s) (d : Nat) : walk (d + 1) s.toks = some (d + 1) := by
  cases s with
  | copy l bs => brackets [Spec.GoD.St.toks, place_walk, bytesToks_walk]
  | assign l e =>
    have he : ∀ d, walk d e.toks = some d := by
      intro d
      cases e with
      | num ts => exact h d
      | bool b => cases b <;> rfl
      | new e => exact ex_walk e d
      | _ => brackets [Spec.GoD.Rhs.toks, bytesToks_walk, ty_walk]
    brackets [Spec.GoD.St.toks, place_walk, he]

theorem dflt_sts_walk {l : List Spec.GoD.St} (h : ∀ s ∈ l, PlainNumber s) (d : Nat) : walk (d + 1) (Spec.GoD.stsToks l) = some (d + 1) :=
  within_flatMap (fun s hs => dflt_st_walk (h s hs)) d

theorem constructor_one (name : Str) {l : List Spec.GoD.St} (h : ∀ s ∈ l, PlainNumber s) : One (Spec.GoD.constructorToks name l) := by
  have e : Spec.GoD.constructorToks name l = ([w "func", .word ("New".toList ++ name), .sign '(', .sign ')', .sign '(', .word name, .sign ')', .sign '{',
    w "r", .sign ':', .sign '=', .word name, .sign '{', .sign '}', .sign ';'] ++
    (Spec.GoD.stsToks l ++ [w "return", w "r", .sign ';', .sign '}'])) ++ [.sign ';'] := by simp [Spec.GoD.constructorToks]
  rw [e]
  have hl : ∀ d, walk (d + 1) (Spec.GoD.stsToks l) = some (d + 1) := dflt_sts_walk h
  refine one_of ?_
  brackets [hl]

theorem constructor_names (name : Str) {l : List Spec.GoD.St} (h : ∀ s ∈ l, PlainNumber s) : Declares (Spec.GoD.constructorToks name l) ["New".toList ++ name] := names_of (constructor_one name h) rfl

theorem setDefault_one (name : Str) {l : List (Nat × List Spec.GoD.St)} (h : ∀ c ∈ l, ∀ s ∈ c.2, PlainNumber s) : One (Spec.GoD.setDefaultToks name l) := by
  have e : Spec.GoD.setDefaultToks name l = ([w "func", .sign '(', w "r", .sign '*', .word name, .sign ')', w "SetDefault", .sign '(', w "i", w "int", .sign ')', .sign '{',
    w "switch", .sign '(', w "i", .sign ')', .sign '{'] ++
    (l.flatMap Spec.GoD.caseToks ++ [.sign '}', .sign ';', w "panic", .sign '(', .text (bytesOf "Unknown field index".toList), .sign ')', .sign ';',
    .sign '}'])) ++ [.sign ';'] := by simp [Spec.GoD.setDefaultToks]
  rw [e]
  have hl : ∀ d, walk (d + 1) (l.flatMap Spec.GoD.caseToks) = some (d + 1) := fun d => within_flatMap (fun c hc d => by
    have := dflt_sts_walk (h c hc) d
    brackets [Spec.GoD.caseToks, this]) d
  refine one_of ?_
  brackets [hl]

theorem setDefault_names (name : Str) {l : List (Nat × List Spec.GoD.St)} (h : ∀ c ∈ l, ∀ s ∈ c.2, PlainNumber s) : Declares (Spec.GoD.setDefaultToks name l) [] := names_of (setDefault_one name h) rfl

/-! ### Spec/GoJson -/

theorem errorf_walk (msg : List Byte) (d : Nat) : walk (d + 1) (Spec.GoJ.errorfToks msg) = some (d + 1) := by brackets [Spec.GoJ.errorfToks]

theorem marshal_walk (s : Spec.GoJ.MSt) (d : Nat) : walk (d + 1) s.toks = some (d + 1) := by
  cases s with
  | switch cases =>
    have hl : ∀ d, walk (d + 1) (cases.flatMap Spec.GoJ.mcaseToks) = some (d + 1) := fun d => within_flatMap (fun c _ d => by brackets [Spec.GoJ.mcaseToks]) d
    brackets [Spec.GoJ.MSt.toks, hl]
  | retBytes slice => cases slice <;> brackets [Spec.GoJ.MSt.toks, if_true, if_false, Bool.false_eq_true]
  | _ => brackets [Spec.GoJ.MSt.toks, Spec.GoJ.rawMap, errorf_walk]

theorem marshal_one (x : Str) (recv : GoTy) (body : List Spec.GoJ.MSt) : One (Spec.GoJ.marshalToks x recv body) := by
  have hl : ∀ d, walk (d + 1) (body.flatMap Spec.GoJ.MSt.toks) = some (d + 1) := fun d => within_flatMap (fun s _ => marshal_walk s) d
  have e : Spec.GoJ.marshalToks x recv body = (w "func" :: .sign '(' :: .word x :: (recv.toks ++ [.sign ')', w "MarshalJSON", .sign '(', .sign ')', .sign '(', .sign '[', .sign ']',
    w "byte", .sign ',', w "error", .sign ')', .sign '{'] ++ (body.flatMap Spec.GoJ.MSt.toks ++ [.sign '}']))) ++ [.sign ';'] := by simp [Spec.GoJ.marshalToks]
  rw [e]
  refine one_of ?_
  brackets [ty_walk, hl]

theorem marshal_names (x : Str) (recv : GoTy) (body : List Spec.GoJ.MSt) : Declares (Spec.GoJ.marshalToks x recv body) [] := names_of (marshal_one x recv body) rfl

/-- Numbers have no brackets. -/
def PlainRead : Spec.GoJ.USt → Prop
  | .field _ (.sets l) => ∀ s ∈ l, PlainNumber s
  | _ => True

theorem readToks_walk (x : Str) (d : Nat) : walk (d + 1) (Spec.GoJ.readToks x) = some (d + 1) := by brackets [Spec.GoJ.readToks]

theorem unmarshal_walk {s : Spec.GoJ.USt} (h : PlainRead s) (d : Nat) : walk (d + 1) s.toks = some (d + 1) := by
  cases s with
  | find ks =>
    have hl : ∀ d, walk (d + 1) (ks.flatMap Spec.GoJ.findToks) = some (d + 1) := fun d => within_flatMap (fun c _ d => by brackets [Spec.GoJ.findToks]) d
    brackets [Spec.GoJ.USt.toks, hl]
  | field f other =>
    have ho : ∀ d, walk (d + 1) other.toks = some (d + 1) := by
      intro d
      cases other with
      | sets l => exact dflt_sts_walk h d
      | fail msg => brackets [Spec.GoJ.Else.toks, errorf_walk]
    brackets [Spec.GoJ.USt.toks, ho]
  | _ => brackets [Spec.GoJ.USt.toks, Spec.GoJ.rawMap, readToks_walk, errorf_walk]

theorem unmarshal_one (x : Str) (recv : GoTy) {body : List Spec.GoJ.USt} (h : ∀ s ∈ body, PlainRead s) : One (Spec.GoJ.unmarshalToks x recv body) := by
  have hl : ∀ d, walk (d + 1) (body.flatMap Spec.GoJ.USt.toks) = some (d + 1) := fun d => within_flatMap (fun s hs => unmarshal_walk (h s hs)) d
  have e : Spec.GoJ.unmarshalToks x recv body = (w "func" :: .sign '(' :: .word x :: (recv.toks ++ [.sign ')', w "UnmarshalJSON", .sign '(', w "data", .sign '[', .sign ']', w "byte",
    .sign ')', .sign '(', w "error", .sign ')', .sign '{'] ++ (body.flatMap Spec.GoJ.USt.toks ++ [.sign '}']))) ++ [.sign ';'] := by simp [Spec.GoJ.unmarshalToks]
  rw [e]
  refine one_of ?_
  brackets [ty_walk, hl]

theorem unmarshal_names (x : Str) (recv : GoTy) {body : List Spec.GoJ.USt} (h : ∀ s ∈ body, PlainRead s) : Declares (Spec.GoJ.unmarshalToks x recv body) [] := names_of (unmarshal_one x recv h) rfl

end Verif
