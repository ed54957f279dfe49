import Verif.Spec.MiniGo
/-
Rules for what programs of Spec/MiniGo do when enough steps are allowed.
-/
namespace Verif
open Spec.Go

section
variable {W : Type} (M : Machine W) (P : Package)

def Ev (vars : Locals) (e : Expr) (st : World W) (vs : List Value) (st' : World W) : Prop :=
  ∃ N, ∀ n, N ≤ n → Spec.Go.eval M P n vars e st = some (vs, st')
def Evs (vars : Locals) (es : List Expr) (st : World W) (vs : List Value) (st' : World W) : Prop :=
  ∃ N, ∀ n, N ≤ n → evals M P n vars es st = some (vs, st')
def Bl (vars : Locals) (ss : List Stmt) (st : World W) (r : Flow) (st' : World W) : Prop :=
  ∃ N, ∀ n, N ≤ n → block M P n vars ss st = some (r, st')
def Ex (vars : Locals) (s : Stmt) (st : World W) (r : Flow) (st' : World W) : Prop :=
  ∃ N, ∀ n, N ≤ n → exec M P n vars s st = some (r, st')
def Lp (vars : Locals) (k v : Str) (body : List Stmt) (xs : List (Value × Value)) (st : World W) (r : Flow) (st' : World W) : Prop :=
  ∃ N, ∀ n, N ≤ n → loop M P n vars k v body xs st = some (r, st')
def Ch (vars : Locals) (v : Value) (cases : List (Expr × List Stmt)) (st : World W) (r : Flow) (st' : World W) : Prop :=
  ∃ N, ∀ n, N ≤ n → choose M P n vars v cases st = some (r, st')
/-- A call from within the package, where no variable hides the packages. -/
def Cl (f : Callee) (args : List Value) (st : World W) (vs : List Value) (st' : World W) : Prop :=
  match f with
  | .own f => ∃ fn, P.funcs f = some fn ∧ Returns M P fn args st vs st'
  | .of x f => outside M x f none args st = some (vs, st')

variable {M P}
variable {vars : Locals} {st st1 st2 : World W}

/-- From a bound for the parts to one for the whole. -/
theorem step0 {α : Type} {f : Nat → Option α} {r : α} (h : ∀ n, f (n + 1) = some r) : ∃ N, ∀ n, N ≤ n → f n = some r := by
  refine ⟨1, fun n hn => ?_⟩
  cases n with
  | zero => omega
  | succ n => exact h n

theorem step1 {α β : Type} {f : Nat → Option α} {g : Nat → Option β} {r : α} {x : β} (hg : ∃ N, ∀ n, N ≤ n → g n = some x)
    (h : ∀ n, g n = some x → f (n + 1) = some r) : ∃ N, ∀ n, N ≤ n → f n = some r := by
  obtain ⟨N, hN⟩ := hg
  refine ⟨N + 1, fun n hn => ?_⟩
  cases n with
  | zero => omega
  | succ n => exact h n (hN n (by omega))

theorem step2 {α β γ : Type} {f : Nat → Option α} {g : Nat → Option β} {g' : Nat → Option γ} {r : α} {x : β} {y : γ}
    (hg : ∃ N, ∀ n, N ≤ n → g n = some x) (hg' : ∃ N, ∀ n, N ≤ n → g' n = some y)
    (h : ∀ n, g n = some x → g' n = some y → f (n + 1) = some r) : ∃ N, ∀ n, N ≤ n → f n = some r := by
  obtain ⟨N, hN⟩ := hg
  obtain ⟨N', hN'⟩ := hg'
  refine ⟨N + N' + 1, fun n hn => ?_⟩
  cases n with
  | zero => omega
  | succ n => exact h n (hN n (by omega)) (hN' n (by omega))

/-! Expressions -/

theorem ev_var {x : Str} {v : Value} (h : vars.lookup x = some v) : Ev M P vars (.var x) st [v] st :=
  step0 fun n => by simp only [Spec.Go.eval, h]

theorem ev_const {x : Str} {v : Value} (h : vars.lookup x = none) (hc : P.consts x = some v) : Ev M P vars (.var x) st [v] st :=
  step0 fun n => by simp only [Spec.Go.eval, h, hc, Option.map_some]

theorem ev_nil : Ev M P vars .nil st [.nil] st := step0 fun n => by simp only [Spec.Go.eval]

theorem ev_num (k : Nat) : Ev M P vars (.num k) st [.int (BitVec.ofNat 64 k)] st := step0 fun n => by simp only [Spec.Go.eval]

theorem ev_text (b : List Byte) : Ev M P vars (.text b) st [.str b] st := step0 fun n => by simp only [Spec.Go.eval]

theorem ev_sel {e : Expr} {f : Str} {v u : Value} (h : Ev M P vars e st [v] st1) (hm : member f v = some u) :
    Ev M P vars (.sel e f) st [u] st1 :=
  step1 h fun n hn => by simp only [Spec.Go.eval, hn, hm, Option.map_some]

theorem ev_len {e : Expr} {v u : Value} (h : Ev M P vars e st [v] st1) (hm : Spec.Go.length v = some u) :
    Ev M P vars (.len e) st [u] st1 :=
  step1 h fun n hn => by simp only [Spec.Go.eval, hn, hm, Option.map_some]

theorem ev_conv {e : Expr} {t : Str} {v u : Value} (h : Ev M P vars e st [v] st1) (hm : convert t v = some u) :
    Ev M P vars (.conv t e) st [u] st1 :=
  step1 h fun n hn => by simp only [Spec.Go.eval, hn, hm, Option.map_some]

theorem ev_eq {a b : Expr} {u v : Value} {x : Bool} (ha : Ev M P vars a st [u] st1) (hb : Ev M P vars b st1 [v] st2)
    (hs : same u v = some x) : Ev M P vars (.eq a b) st [.bool x] st2 :=
  step2 ha hb fun n h1 h2 => by simp only [Spec.Go.eval, h1, h2, hs, Option.map_some]

theorem ev_ne {a b : Expr} {u v : Value} {x : Bool} (ha : Ev M P vars a st [u] st1) (hb : Ev M P vars b st1 [v] st2)
    (hs : same u v = some x) : Ev M P vars (.ne a b) st [.bool (!x)] st2 :=
  step2 ha hb fun n h1 h2 => by simp only [Spec.Go.eval, h1, h2, hs, Option.map_some]

theorem ev_or_true {a b : Expr} (ha : Ev M P vars a st [.bool true] st1) : Ev M P vars (.or a b) st [.bool true] st1 :=
  step1 ha fun n h1 => by simp only [Spec.Go.eval, h1]

theorem ev_or_false {a b : Expr} {vs : List Value} (ha : Ev M P vars a st [.bool false] st1) (hb : Ev M P vars b st1 vs st2) :
    Ev M P vars (.or a b) st vs st2 :=
  step2 ha hb fun n h1 h2 => by simp only [Spec.Go.eval, h1, h2]

theorem ev_all {e : Expr} {bs : List Byte} (h : Ev M P vars e st [.bytes bs] st1) : Ev M P vars (.all e) st [.bytes bs] st1 :=
  step1 h fun n hn => by simp only [Spec.Go.eval, hn]

theorem evs_nil : Evs M P vars [] st [] st := step0 fun n => by simp only [evals]

theorem evs_cons {e : Expr} {es : List Expr} {v : Value} {vs : List Value} (h : Ev M P vars e st [v] st1)
    (hs : Evs M P vars es st1 vs st2) : Evs M P vars (e :: es) st (v :: vs) st2 :=
  step2 h hs fun n h1 h2 => by simp only [evals, h1, h2]

/-- A call; `x` in `x.f` is the name of a package. -/
theorem ev_call {f : Callee} {args : List Expr} {us vs : List Value} (ha : Evs M P vars args st us st1)
    (hx : ∀ x g, f = .of x g → vars.lookup x = none) (hc : Cl M P f us st1 vs st2) : Ev M P vars (.call f args) st vs st2 := by
  cases f with
  | own f =>
    obtain ⟨fn, hf, hr⟩ := hc
    exact step2 ha hr fun n h1 h2 => by simp only [Spec.Go.eval, h1, hf, h2]
  | of x g =>
    have hx := hx x g rfl
    have hc : outside M x g none us st1 = some (vs, st2) := hc
    exact step1 ha fun n h1 => by simp only [Spec.Go.eval, h1, hx, hc]

/-- A call of a method of a variable. -/
theorem ev_method {x f : Str} {args : List Expr} {us vs : List Value} (ha : Evs M P vars args st us st1)
    (hc : outside M x f (vars.lookup x) us st1 = some (vs, st2)) : Ev M P vars (.call (.of x f) args) st vs st2 :=
  step1 ha fun n h1 => by simp only [Spec.Go.eval, h1, hc]

/-! Statements -/

theorem bl_nil : Bl M P vars [] st (.next vars) st := step0 fun n => by simp only [block]

theorem bl_next {s : Stmt} {ss : List Stmt} {vars' : Locals} {r : Flow} (h : Ex M P vars s st (.next vars') st1)
    (hs : Bl M P vars' ss st1 r st2) : Bl M P vars (s :: ss) st r st2 :=
  step2 h hs fun n h1 h2 => by simp only [block, h1, h2]

theorem bl_ret {s : Stmt} {ss : List Stmt} {vs : List Value} (h : Ex M P vars s st (.ret vs) st1) :
    Bl M P vars (s :: ss) st (.ret vs) st1 :=
  step1 h fun n h1 => by simp only [block, h1]

theorem ex_declare (x : Str) : Ex M P vars (.declare x "error".toList) st (.next ((x, .error none) :: vars)) st :=
  step0 fun n => by simp only [exec, if_pos]

theorem ex_define {xs : List Str} {e : Expr} {vs : List Value} {vars' : Locals} (h : Ev M P vars e st vs st1)
    (hb : Spec.Go.bind xs vs vars = some vars') : Ex M P vars (.define xs e) st (.next vars') st1 :=
  step1 h fun n h1 => by simp only [exec, h1, hb, Option.map_some]

theorem ex_assign {xs : List Str} {e : Expr} {vs : List Value} {vars' : Locals} (h : Ev M P vars e st vs st1)
    (hb : store xs vs vars = some vars') : Ex M P vars (.assign xs e) st (.next vars') st1 :=
  step1 h fun n h1 => by simp only [exec, h1, hb, Option.map_some]

theorem ex_cond_true {e : Expr} {body : List Stmt} {r : Flow} (h : Ev M P vars e st [.bool true] st1) (hb : Bl M P vars body st1 r st2) :
    Ex M P vars (.cond e body) st (leave vars r) st2 :=
  step2 h hb fun n h1 h2 => by simp only [exec, h1, h2, Option.map_some]

theorem ex_cond_false {e : Expr} {body : List Stmt} (h : Ev M P vars e st [.bool false] st1) :
    Ex M P vars (.cond e body) st (.next vars) st1 :=
  step1 h fun n h1 => by simp only [exec, h1]

theorem ex_range {k v : Str} {e : Expr} {body : List Stmt} {c : Value} {xs : List (Value × Value)} {r : Flow}
    (h : Ev M P vars e st [c] st1) (hv : visits M c st1.loops = some xs) (hl : Lp M P vars k v body xs (begun c st1) r st2) :
    Ex M P vars (.range k v e body) st r st2 :=
  step2 h hl fun n h1 h2 => by simp only [exec, h1, hv, h2]

theorem ex_switch {e : Expr} {cases : List (Expr × List Stmt)} {v : Value} {r : Flow} (h : Ev M P vars e st [v] st1)
    (hc : Ch M P vars v cases st1 r st2) : Ex M P vars (.switch e cases) st r st2 :=
  step2 h hc fun n h1 h2 => by simp only [exec, h1, h2]

theorem ex_ret {e : Expr} {vs : List Value} (h : Ev M P vars e st vs st1) : Ex M P vars (.ret e) st (.ret vs) st1 :=
  step1 h fun n h1 => by simp only [exec, h1]

theorem lp_nil {k v : Str} {body : List Stmt} : Lp M P vars k v body [] st (.next vars) st := step0 fun n => by simp only [loop]

theorem lp_next {k v : Str} {body : List Stmt} {x : Value × Value} {xs : List (Value × Value)} {inner vars' : Locals} {r r' : Flow}
    (hb : Spec.Go.bind [k, v] [x.1, x.2] vars = some inner) (h : Bl M P inner body st r st1) (hl : leave vars r = .next vars')
    (hs : Lp M P vars' k v body xs st1 r' st2) : Lp M P vars k v body (x :: xs) st r' st2 :=
  step2 h hs fun n h1 h2 => by simp only [loop, hb, h1, hl, h2]

theorem lp_ret {k v : Str} {body : List Stmt} {x : Value × Value} {xs : List (Value × Value)} {inner : Locals} {vs : List Value}
    (hb : Spec.Go.bind [k, v] [x.1, x.2] vars = some inner) (h : Bl M P inner body st (.ret vs) st1) :
    Lp M P vars k v body (x :: xs) st (.ret vs) st1 :=
  step1 h fun n h1 => by simp only [loop, hb, h1, leave]

theorem ch_nil {v : Value} : Ch M P vars v [] st (.next vars) st := step0 fun n => by simp only [choose]

theorem ch_miss {v u : Value} {c : Expr} {body : List Stmt} {cs : List (Expr × List Stmt)} {r : Flow} (h : Ev M P vars c st [u] st1)
    (hu : same v u = some false) (hs : Ch M P vars v cs st1 r st2) : Ch M P vars v ((c, body) :: cs) st r st2 :=
  step2 h hs fun n h1 h2 => by simp only [choose, h1, hu, h2]

theorem ch_hit {v u : Value} {c : Expr} {body : List Stmt} {cs : List (Expr × List Stmt)} {r : Flow} (h : Ev M P vars c st [u] st1)
    (hu : same v u = some true) (hs : Bl M P vars body st1 r st2) : Ch M P vars v ((c, body) :: cs) st (leave vars r) st2 :=
  step2 h hs fun n h1 h2 => by simp only [choose, h1, hu, h2, Option.map_some]

theorem returns_of {f : Func} {args vs : List Value} (hb : Spec.Go.bind ((f.recv.toList ++ f.params).map (·.1)) args [] = some vars)
    (h : Bl M P vars f.body st (.ret vs) st1) : Returns M P f args st vs st1 :=
  step1 h fun n h1 => by simp only [Spec.Go.call, hb, h1]
end

/-- More steps do not change what a call returns: two results are the same. -/
theorem returns_unique {W : Type} {M : Machine W} {P : Package} {f : Func} {args vs vs' : List Value} {st st1 st2 : World W}
    (h : Returns M P f args st vs st1) (h' : Returns M P f args st vs' st2) : vs = vs' ∧ st1 = st2 := by
  obtain ⟨N, h⟩ := h
  obtain ⟨N', h'⟩ := h'
  have e1 := h (N + N') (by omega)
  have e2 := h' (N + N') (by omega)
  rw [e1] at e2
  cases e2
  exact ⟨rfl, rfl⟩

end Verif
