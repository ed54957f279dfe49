import Verif.Compiler.Ends
import Verif.Props.Decode
/-
Property C19 for targets of any kind: whatever implements `types.Field`, the evaluation of a
compiled program on finite input ends.
-/
namespace Verif.Props
open Verif
set_option linter.unusedVariables false

section
variable {R T : Type} {ro : ReaderOps R} {view : R → List Byte}

/-- C19 for any target: `Eval` of a compiled program returns, with an error or without. The target
may be of any type, its methods may do anything (`FieldOps`), except that setting two defaults must
not depend on their order, which `compiler.Compile` leaves open. -/
theorem any_target_ends (fo : FieldOps T) (hf : DefaultsCommute fo) {w r : Schema} (hs : Sound w r) (hg : Grounded w.env)
    (hd : ro.Delivers view) {ord : Orders} {prog : Program} (hc : compile ord false w r = .ok prog) (rd : R) (t : T) :
    ∃ res, ∀ res', Evaluates ro fo prog rd t res' ↔ res' = res := by
  obtain ⟨main, st, h1, h2⟩ := compile_ok hc
  obtain ⟨hcol, hnn⟩ := hs.clean h1
  obtain ⟨n, ⟨f, rd', t', h⟩ | ⟨e, h⟩⟩ := interp_total (delivers_shrinks hd) fo w.env r.env false hg w.root (some r.root) rd t
  all_goals
    have hrun := run_compiled ro fo hs.namesW hs.namesR hs.sizes hf h1 hcol hnn h2 n rd t
  · exact ⟨_, fun res' => ⟨fun x => x.det (hrun.1 _ _ _ h), fun x => x ▸ hrun.1 _ _ _ h⟩⟩
  · exact ⟨_, fun res' => ⟨fun x => x.det (hrun.2 _ h), fun x => x ▸ hrun.2 _ h⟩⟩

/-- A target of another kind: it counts the calls of its methods and does nothing else. -/
def counter : FieldOps Nat where
  setBoolean t _ := .ok (t + 1)
  setInt t _ := .ok (t + 1)
  setLong t _ := .ok (t + 1)
  setFloat t _ := .ok (t + 1)
  setDouble t _ := .ok (t + 1)
  setBytes t _ := .ok (t + 1)
  setString t _ := .ok (t + 1)
  get t _ := .ok t
  put _ _ t := t + 1
  setDefault t _ := .ok (t + 1)
  appendMap t _ := .ok t
  putMap _ _ t := t + 1
  appendArray t := .ok t
  putArray _ t := t + 1
  nullField t _ := .ok (t + 1)
  hintSize t _ := .ok (t + 1)
  finalize t := .ok (t + 1)

example (input : List (List Byte)) : ∃ prog res, ∀ res', Evaluates (demo true).ro counter prog input 0 res' ↔ res' = res := by
  obtain ⟨prog, hc⟩ := sample_compiles
  exact ⟨prog, any_target_ends counter (fun _ _ _ => rfl) sample_suited.toSound sample_wellFormed.grounded (demo_delivers true) hc input 0⟩
end
end Verif.Props
