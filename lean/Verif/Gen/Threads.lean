import Verif.Gen.MemSim
import Verif.VM.Steps
import Verif.Gen.Decode
/-
Calls of `Deserialize` functions in several goroutines, which share memory.

Each goroutine calls with its own `io.Reader`. What a call does to memory it does in the methods of
`types.Field` that `vm.Eval` calls (v10/vm/eval.go:35-160), in the constructor and `NewX` before that, and
in the return statement. Each of these is a step; between two steps of a call, other goroutines may
take steps. (Within a method they may do so too. The theorems show that a step only looks at and only
changes objects that its call has made, and those that it makes, so that it makes no difference when in
a step the others run.) The program of `vm.Eval` is not changed by it (vm/program.go has no method that
does) and is part of a step's text here.
-/
namespace Verif

/-- `t := NewX()` and the target for it (templates/record.go:45-66, union.go:67-101). -/
def newA (env : Env) (root : Ty) (h : Mem) : Except Err ((MTgt × Place) × Mem) :=
  match memNew env root h with
  | (v0, h0) => match memTarget env root ⟨h0.length, []⟩ (h0 ++ [.var v0]) with
    | .error e => .error e
    | .ok (S, h1) => .ok ((S, ⟨h0.length, []⟩), h1)

/-- `return t`. -/
def lookA (q : Place) (h : Mem) : Except Err (Var × Mem) :=
  match h.read q with
  | some v => .ok (v, h)
  | none => .error .panic

/-- `DeserializeX` and `DeserializeXFromSchema` (templates/record.go:45-66, union.go:67-101) after the schemas have been
compiled to `prog`, with fuel `n`. The result is what is left of the input and what the variable `t` holds. -/
def callA {R : Type} (σ : Setting R) (grow : Nat → Nat) (r : Schema) (prog : Program) (n : Nat) (rd : R) : Todo MObj (R × Var) :=
  .op (newA r.env r.root) fun Sq =>
    (evalA σ.ro (memOps r.env σ.lim σ.dv grow) prog n 0 {} false rd Sq.1).bind fun ret =>
    .op (lookA Sq.2) fun v => .ret (.done (ret.r, v))

theorem memOps_inPlace (re : Env) (lim : Nat) (dv : Field → Val) (grow : Nat → Nat) : (memOps re lim dv grow).InPlace :=
  ⟨fun _ _ _ _ => rfl, fun _ _ _ _ => rfl, fun _ _ _ => rfl⟩
end Verif
