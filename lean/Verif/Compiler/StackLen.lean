import Verif.Compiler.Stack
import Verif.Gen.ParseProps
/-
What is left of the input as a measure of the nesting of what is read.
-/
namespace Verif
variable {R : Type} {o : ReaderOps R} {view : R → List Byte}

theorem delivers_meter (h : o.Delivers view) : Meter o (fun r => (view r).length) 1 := by
  have key : ∀ {α : Type} {f : R → Except Err (α × R)} {g : List Byte → Except Err (α × List Byte)} {e : Nat},
      (∀ r, vmap view (f r) = g (view r)) → (∀ r a r', g r = .ok (a, r') → r'.length + e ≤ r.length) →
      ∀ {c : α → Frame} {r fr' r'}, mapOk c (f r) = .ok (fr', r') → (view r').length + e ≤ (view r).length := by
    intro α f g e h1 h2 c r fr' r' hx
    cases hf : f r with
    | error e => rw [hf] at hx; cases hx
    | ok x =>
      obtain ⟨a, r1⟩ := x
      have h3 := h1 r
      rw [hf] at h3 hx
      simp only [mapOk, Except.ok.injEq, Prod.mk.injEq] at hx
      rw [← hx.2]
      exact h2 _ _ _ h3.symm
  have bool : ∀ k r a r', readBool (flatOps k) r = .ok (a, r') → r'.length + 0 ≤ r.length := by
    intro k r a r' hx
    cases r with
    | nil =>
      cases k
      · simp [readBool, flatOps, flatReadFull] at hx
      · simp only [readBool, flatOps, flatReadByte, if_true, Except.ok.injEq, Prod.mk.injEq] at hx
        rw [← hx.2]; simp
    | cons b r =>
      rw [readBool_cons] at hx
      simp only [Except.ok.injEq, Prod.mk.injEq] at hx
      rw [← hx.2]; simp
  refine ⟨fun arg fr r fr' r' hx => ?_, fun fr r fr' r' hx => ?_⟩
  · unfold doRead at hx
    split at hx
    · simp only [Except.ok.injEq, Prod.mk.injEq] at hx; rw [hx.2]; exact Nat.le_refl _
    split at hx
    · exact key (e := 0) (sim_readBool h) (bool _) hx
    split at hx
    · exact key (e := 0) (sim_readInt h) (Local.shrink (local_readInt _)) hx
    split at hx
    · exact key (e := 0) (sim_readLong h) (Local.shrink (local_readLong _)) hx
    split at hx
    · exact key (e := 0) (sim_readLong h) (Local.shrink (local_readLong _)) hx
    split at hx
    · exact key (e := 0) (sim_readFloat h) (Local.shrink (local_readFloat _)) hx
    split at hx
    · exact key (e := 0) (sim_readDouble h) (Local.shrink (local_readDouble _)) hx
    split at hx
    · exact key (e := 0) (sim_readSized h _) (Local.shrink (local_readSized _ _)) hx
    split at hx
    · exact key (e := 0) (sim_readSized h _) (Local.shrink (local_readSized _ _)) hx
    · exact key (e := 0) (sim_readFixed h _) (Local.shrink (local_readFixed _ _)) hx
  · rw [show doRead o opLong fr r = mapOk (fun v => { fr with long := v }) (readLong o r) from rfl] at hx
    exact key (e := 1) (sim_readLong h) (fun r a r' => readLong_consumes) hx

/-- The ranks of a grounded schema have a bound. -/
theorem grounded_bounded {env : Env} (h : Grounded env) : ∃ (rank : QName → Nat) (K : Nat), (∀ q, rank q ≤ K) ∧
    ∀ q d fs, env.find q = some d → d.kind = .record fs → ∀ f ∈ fs, ∀ q', f.ty = .ref q' → rank q' < rank q := by
  obtain ⟨rank, h⟩ := h
  obtain ⟨K, hK⟩ := bound_list (fun n (x : QName × Def) => rank x.1 ≤ n) (fun _ _ _ h1 h2 => Nat.le_trans h2 h1) env
    fun x _ => ⟨_, Nat.le_refl _⟩
  refine ⟨fun q => if (env.find q).isSome then rank q else 0, K, fun q => ?_, fun q d fs hd hk f hf q' ht => ?_⟩
  · by_cases hq : (env.find q).isSome = true
    · simp only [hq, if_true]
      cases hd : env.find q with
      | none => rw [hd] at hq; cases hq
      | some d => exact hK _ (Env.find_mem hd)
    · simp [hq]
  · have h1 := h q d fs hd hk f hf q' ht
    simp only [hd, Option.isSome_some, if_true]
    split <;> omega

end Verif
