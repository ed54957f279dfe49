import Verif.Compiler.Fuel
/-
More fuel does not change the result of a compilation. `compile` is `Compile` of
v10/compiler/compile.go with the fuel chosen so that it never runs out.
-/
set_option linter.unusedSimpArgs false
set_option linter.unusedVariables false
namespace Verif

/-- `a` ran out of fuel or is `b`. -/
def CLe {α : Type} (a b : Except CErr α) : Prop := a = .error .fuel ∨ a = b

theorem CLe.rfl {α : Type} {a : Except CErr α} : CLe a a := .inr _root_.rfl

theorem CLe.eq {α : Type} {a b : Except CErr α} (h : CLe a b) (hn : a ≠ .error .fuel) : a = b := by
  rcases h with h | h
  · exact absurd h hn
  · exact h

theorem CLe.wrap {pre post : List IR} {a b : CRes} (h : CLe a b) : CLe (wrapIR pre post a) (wrapIR pre post b) := by
  rcases h with h | h
  · left; rw [h]; rfl
  · right; rw [h]

theorem CLe.seq {a b : CRes} {f g : CState → CRes} (h : CLe a b) (hf : ∀ st, CLe (f st) (g st)) :
    CLe (seqIR a f) (seqIR b g) := by
  rcases h with h | h
  · left; rw [h]; rfl
  · subst h
    cases a with
    | error e => exact .rfl
    | ok x => obtain ⟨irs, st⟩ := x; exact (hf st).wrap

section
variable {ord : Orders} {lax : Bool} {we re : Env} {f g : CState → Ty → Option Ty → CRes}
  (h : ∀ st w r, CLe (f st w r) (g st w r))
include h

theorem cle_member (id i t reader st) :
    CLe (compileMember we re f id i t reader st) (compileMember we re g id i t reader st) := by
  unfold compileMember
  split
  · exact (h _ _ _).wrap
  · split
    · split
      · exact .rfl
      · exact (h _ _ _).wrap
    · split
      · split
        · exact .rfl
        · exact (h _ _ _).wrap
      · exact .rfl
  · split
    · split
      · exact .rfl
      · exact (h _ _ _).wrap
    · exact .rfl

theorem cle_members (id reader) : ∀ (ts : List Ty) (i : Nat) st,
    CLe (compileMembers we re f id reader i ts st) (compileMembers we re g id reader i ts st) := by
  intro ts
  induction ts with
  | nil => intro i st; exact .rfl
  | cons t ts ih => intro i st; exact (cle_member h _ _ _ _ _).seq fun st => ih _ _

theorem cle_fields (reader) : ∀ (ws : List Field) st,
    CLe (compileFields we re f reader ws st) (compileFields we re g reader ws st) := by
  intro ws
  induction ws with
  | nil => intro st; exact .rfl
  | cons w ws ih =>
    intro st
    simp only [compileFields]
    split
    · exact (h _ _ _).seq fun st => ih _
    · split
      · exact (h _ _ _).wrap.seq fun st => ih _
      · exact .rfl

theorem cle_call (key pair wfs reader st) :
    CLe (compileCall ord we re f key pair wfs reader st) (compileCall ord we re g key pair wfs reader st) := by
  unfold compileCall
  split
  · exact .rfl
  · have hr : CLe (compileRecord ord we re f st.started.length wfs reader
        { st with started := st.started ++ [(key, pair)] })
        (compileRecord ord we re g st.started.length wfs reader
        { st with started := st.started ++ [(key, pair)] }) :=
      (cle_fields h _ _ _).seq fun st => .rfl
    rcases hr with hr | hr
    · left; rw [hr]
    · right; rw [hr]

theorem cle_def (wd rd st) : CLe (compileDef ord we re f wd rd st) (compileDef ord we re g wd rd st) := by
  unfold compileDef
  split <;> first | exact .rfl | exact cle_call h _ _ _ _ _

theorem cle_ref (q q' st) : CLe (compileRef ord lax we re f q q' st) (compileRef ord lax we re g q q' st) := by
  unfold compileRef
  split
  · exact .rfl
  · split
    · exact cle_def h _ _ _
    · split
      · exact .rfl
      · split
        · exact cle_def h _ _ _
        · exact .rfl

theorem cle_body (w r st) : CLe (compileBody ord lax we re f w r st) (compileBody ord lax we re g w r st) := by
  unfold compileBody
  split <;> try exact .rfl
  · exact (cle_members h _ _ _ _ _).wrap
  · split <;> first | exact .rfl | exact (h _ _ _).wrap
  · split <;> first | exact .rfl | exact (h _ _ _).wrap
  · split <;> first | exact .rfl | exact cle_ref h _ _ _
end

theorem compileType_succ (ord : Orders) (lax : Bool) (we re : Env) (n st w r) :
    compileType ord lax we re (n + 1) st w r =
    match w.isUnion, r with
    | false, some (.union rs) =>
      match findIdx (w.readableBy we re) 0 rs with
      | some (i, r') =>
        wrapIR (unionEnter i) [lit .exit noopField]
          (compileType ord lax we re n st w (some r'))
      | none => .error .incompatible
    | _, _ => compileBody ord lax we re (compileType ord lax we re n) w r st := by
  conv => lhs; unfold compileType
  cases w.isUnion <;> cases r <;> try rfl

theorem cle_type (ord : Orders) (lax : Bool) (we re : Env) : ∀ n st w r,
    CLe (compileType ord lax we re n st w r) (compileType ord lax we re (n + 1) st w r) := by
  intro n
  induction n with
  | zero => intro st w r; left; rfl
  | succ n ih =>
    intro st w r
    rw [compileType_succ, compileType_succ]
    split
    · split
      · exact (ih _ _ _).wrap
      · exact .rfl
    · exact cle_body ih _ _ _

theorem compileType_mono {ord : Orders} {lax : Bool} {we re : Env} {n m st w r} (hnm : n ≤ m)
    (h : compileType ord lax we re n st w r ≠ .error .fuel) :
    compileType ord lax we re m st w r = compileType ord lax we re n st w r := by
  induction hnm with
  | refl => rfl
  | step _ ih =>
    rename_i m _
    rw [← ih]
    rcases cle_type ord lax we re m st w r with h1 | h1
    · rw [ih] at h1; exact absurd h1 h
    · exact h1.symm

/-- `Compile`, v10/compiler/compile.go:46-70 (see `compileFuel`): the fuel is enough for
these schemas (`compile_eq`). -/
def compile (ord : Orders) (lax : Bool) (w r : Schema) : Except CErr Program :=
  compileFuel (compileBound w r) ord lax w r

/-- With any fuel, a result other than running out is the result of `compile`. -/
theorem compile_eq {ord : Orders} {lax : Bool} {w r : Schema} {n} (h : compileFuel n ord lax w r ≠ .error .fuel) :
    compile ord lax w r = compileFuel n ord lax w r := by
  have hb := compileFuel_ends ord lax w r (compileBound w r) (Nat.le_refl _)
  have key : ∀ k m, k ≤ m → compileFuel k ord lax w r ≠ .error .fuel →
      compileFuel m ord lax w r = compileFuel k ord lax w r := by
    intro k m hkm hk
    have : compileType ord lax w.env r.env k {} w.root (some r.root) ≠ .error .fuel := by
      intro he; apply hk; unfold compileFuel; rw [he]
    unfold compileFuel
    rw [compileType_mono hkm this]
  rcases Nat.le_total n (compileBound w r) with hle | hle
  · exact key _ _ hle h
  · exact (key _ _ hle hb).symm

theorem compile_ends (ord : Orders) (lax : Bool) (w r : Schema) : compile ord lax w r ≠ .error .fuel :=
  compileFuel_ends ord lax w r _ (Nat.le_refl _)

/-- What `compile` did when it succeeded. -/
theorem compile_ok {ord : Orders} {lax : Bool} {w r : Schema} {prog} (h : compile ord lax w r = .ok prog) :
    ∃ main st, compileType ord lax w.env r.env (compileBound w r) {} w.root (some r.root) = .ok (main, st) ∧
      linkProgram ord main st = .ok prog := by
  unfold compile compileFuel at h
  split at h
  · simp at h
  · rename_i main st hc; exact ⟨main, st, hc, h⟩
end Verif
