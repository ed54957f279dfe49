import Verif.Gen.Lax
import Verif.Props.Compiler
/-
Property C75: the option `AllowLaxNames` of `compiler.Compile`.

* `DeserializesLax σ w r rd res`: the schemas are compiled with the option and the program is
  run on a new value of the reader's type, with outcome `res`. (`Deserializes`: without.)
* `withRootAlias`: the reader's schema in which its root definition has one more alias.
-/
namespace Verif.Props
open Verif
set_option linter.unusedVariables false
set_option linter.unusedSimpArgs false

/-- The schema, with `a` as a further alias of the definition of its root. -/
def withRootAlias (r : Schema) (a : QName) : Schema :=
  match r.root with
  | .ref q => { r with env := r.env.withAlias q a }
  | _ => r

/-- No field of a record mentions the definition of the root. -/
def RootNotNested (r : Schema) : Prop := ∀ q, r.root = .ref q → NoFieldOf r.env q

section
variable {R : Type} {σ : Setting R} {view : R → List Byte} {w r : Schema}

/-- C75: schemas that compile without the option compile with it, to the same program. -/
theorem lax_same_program {ord : Orders} {prog : Program} (h : compile ord false w r = .ok prog) :
    compile ord true w r = .ok prog := compile_lax h

/-- C75: what is read without the option is read with it, with the same outcome. -/
theorem lax_same_outcome {rd : R} {res : Res R} (h : Deserializes σ w r rd res) (hr : res ≠ .refused) :
    DeserializesLax σ w r rd res := by
  cases h with
  | refused h => exact absurd rfl hr
  | failed h h' => exact .failed (compile_lax h) h'
  | value h h' hv => exact .value (compile_lax h) h' hv
  | junk h h' hv => exact .junk (compile_lax h) h' hv

/-- C75: a definition at the root is read, whatever its name, as if its name were an alias of
the reader's. What is missing: readers whose root is mentioned in a field
(`lax_recursive_refused`). -/
theorem lax_root_renamed_partial {rd : R} {res : Res R} {q q' : QName} {wd : Def} (hw : w.root = .ref q)
    (hwd : w.env.find q = some wd) (hq : r.root = .ref q') (hn : RootNotNested r)
    (h : Deserializes σ w (withRootAlias r wd.name) rd res) (hr : res ≠ .refused) : DeserializesLax σ w r rd res := by
  have e : withRootAlias r wd.name = { env := r.env.withAlias q' wd.name, root := .ref q' } := by
    unfold withRootAlias; rw [hq]
  have er : r = { env := r.env, root := .ref q' } := by cases r; cases hq; rfl
  rw [e] at h
  have hc : ∀ {prog}, compile σ.ord false w { env := r.env.withAlias q' wd.name, root := .ref q' } = .ok prog →
      compile σ.ord true w r = .ok prog := by
    intro prog hp
    rw [er]; exact compile_alias hw (hn q' hq) hp
  have ht : Tgt.new (r.env.withAlias q' wd.name) (.ref q') none = Tgt.new r.env r.root none := by rw [new_alias, hq]
  cases h with
  | refused h => exact absurd rfl hr
  | failed h h' => rw [genOps_alias, ht] at h'; exact .failed (hc h) h'
  | value h h' hv => rw [genOps_alias, ht] at h'; exact .value (hc h) h' hv
  | junk h h' hv => rw [genOps_alias, ht] at h'; exact .junk (hc h) h' hv

/-- One call, one outcome. -/
theorem DeserializesLax.det {rd : R} {a b : Res R} (ha : DeserializesLax σ w r rd a) (hb : DeserializesLax σ w r rd b) :
    a = b := by
  cases ha with
  | refused h => cases hb with
    | refused => rfl
    | failed h' => rw [h] at h'; cases h'
    | value h' => rw [h] at h'; cases h'
    | junk h' => rw [h] at h'; cases h'
  | failed h he => cases hb with
    | refused h' => rw [h] at h'; cases h'
    | failed h' => rfl
    | value h' he' => rw [h] at h'; cases h'; cases he.det he'
    | junk h' he' => rw [h] at h'; cases h'; cases he.det he'
  | value h he hv => cases hb with
    | refused h' => rw [h] at h'; cases h'
    | failed h' he' => rw [h] at h'; cases h'; cases he.det he'
    | value h' he' hv' => rw [h] at h'; cases h'; cases he.det he'; rw [hv] at hv'; cases hv'; rfl
    | junk h' he' hv' => rw [h] at h'; cases h'; cases he.det he'; rw [hv] at hv'; cases hv'
  | junk h he hv => cases hb with
    | refused h' => rw [h] at h'; cases h'
    | failed h' he' => rw [h] at h'; cases h'; cases he.det he'
    | value h' he' hv' => rw [h] at h'; cases h'; cases he.det he'; rw [hv] at hv'; cases hv'
    | junk h' => rfl

/-- C75: the value that is read is what Avro's rules give for the schemas with the alias. -/
theorem lax_resolution_partial {q q' : QName} {wd : Def} (hw : w.root = .ref q) (hwd : w.env.find q = some wd)
    (hq : r.root = .ref q') (hn : RootNotNested r) {d : Datum} {rd : R} {rest : List Byte}
    (h : Reading σ view w (withRootAlias r wd.name) d rd rest) (hf : DropsFlat w.env (withRootAlias r wd.name).env) {prog}
    (hc : compile σ.ord false w (withRootAlias r wd.name) = .ok prog) :
    match resolve (fun _ => true) σ.dv w.env (withRootAlias r wd.name).env d w.root (withRootAlias r wd.name).root with
    | some v => ∃ rd', DeserializesLax σ w r rd (.value (rootVal v) rd') ∧ view rd' = rest
    | none => DeserializesLax σ w r rd .failed := by
  have := resolution_exact h hf hc
  split <;> rename_i he <;> rw [he] at this
  · obtain ⟨rd', h1, h2⟩ := this
    exact ⟨rd', lax_root_renamed_partial hw hwd hq hn h1 (by simp), h2⟩
  · exact lax_root_renamed_partial hw hwd hq hn this (by simp)

/-- C75: the option removes no reason for an error but that of the names: if `Compile` with it
returns an error, there is a place where the schemas do not fit, other than in the names or
sizes of two definitions that are matched. -/
theorem lax_error_reason {ord : Orders} {e} (hs : Suited w r) (h : compile ord true w r = .error e) :
    Refused true w.env r.env w.root (some r.root) := compile_error_reason hs.fields h
end

/-! Examples -/

/-- `runB`, with the option. -/
def runLaxB (k : Bool) (n fuel : Nat) (w r : Schema) (rd : List (List Byte)) : Option (Res (List (List Byte))) :=
  match compileFuel n Orders.id true w r with
  | .error .fuel => none
  | .error _ => some .refused
  | .ok prog => match evalProg (demo k).ro (genOps r.env (demo k).lim (demo k).dv) prog fuel rd (.new r.env r.root none) with
    | .timeout => none
    | .err _ => some .failed
    | .done (rd', t) => match t.val with
      | some v => some (.value v rd')
      | none => some .junk

theorem runLax_of {k : Bool} {n fuel : Nat} {w r : Schema} {rd : List (List Byte)} {res : Res (List (List Byte))}
    (h : runLaxB k n fuel w r rd = some res) : DeserializesLax (demo k) w r rd res := by
  unfold runLaxB at h
  have key : ∀ x, compileFuel n Orders.id true w r = x → x ≠ .error .fuel → compile (demo k).ord true w r = x := by
    intro x hx hn
    show compile Orders.id true w r = x
    rw [compile_eq (n := n) (by rw [hx]; exact hn), hx]
  split at h
  · cases h
  · rename_i e hc hne
    cases h
    exact .refused (key _ hne (by simpa using hc))
  · rename_i prog hc
    have hc := key _ hc (by simp)
    split at h
    · cases h
    · rename_i e he
      cases h; exact .failed hc ⟨fuel, he⟩
    · rename_i rd' t he
      split at h
      · rename_i v hv
        cases h
        exact .value hc (t := t) ⟨fuel, he⟩ hv
      · rename_i hv
        cases h
        exact .junk hc (t := t) ⟨fuel, he⟩ hv

/-- `vm.Eval` of the program that is compiled with the option ends with `res`. -/
theorem runsLax (k : Bool) (n fuel : Nat) {w r : Schema} {rd : List (List Byte)} {res : Res (List (List Byte))}
    (h : resEq (runLaxB k n fuel w r rd) (some res) = true) : DeserializesLax (demo k) w r rd res :=
  runLax_of (resEq_eq h)

/-- The reader `thinR` with another name: without the option it is refused, with it the data are
read as Avro says they are if the name is an alias. -/
def thinQ : Schema := one qR thinFieldsR
theorem thinQ_apart : RootNotNested thinQ := by
  intro q hq p d fs hd hk f hf
  have := one_find hd
  obtain ⟨rfl, rfl⟩ := this
  cases hk
  simp only [thinFieldsR, List.mem_cons, List.not_mem_nil, or_false] at hf
  rcases hf with rfl | rfl | rfl <;> trivial

example : (∀ rd, Deserializes (demo true) thin thinQ rd .refused) ∧
    ∃ rd', DeserializesLax (demo true) thin thinQ [thinBytes, []]
      (.value (.record [.bytes (txt "z"), .int 7, .double 0x4000000000000000]) rd') ∧ rd'.flatten = [] := by
  refine ⟨fun rd => ?_, ?_⟩
  · obtain ⟨e, he⟩ := incompatible_refused_partial (w := thin) (r := thinQ) (suited_of (by decide +kernel)) Orders.id (q := qP)
      rfl (by rw [← readable_iff]; decide +kernel)
    exact .refused he
  · obtain ⟨prog, hc⟩ := compiles_of (n := 9) (w := thin) (r := withRootAlias thinQ qP) (by decide +kernel)
    have := lax_resolution_partial (w := thin) (r := thinQ) (q := qP) (q' := qR) (σ := demo true) (d := thinDatum)
      (rd := [thinBytes, []]) (rest := []) (view := List.flatten) rfl rfl rfl thinQ_apart
      (reading_of true (by decide +kernel) (by decide +kernel) (by decide +kernel) _) (by
        intro q q' wd rd wfs rfs h1 h2 h3 h4 wf hwf _
        have a := Env.find_mem h1
        simp [thin] at a
        obtain ⟨rfl, rfl⟩ := a
        cases h3
        simp only [thinFields, List.mem_cons, List.not_mem_nil, or_false] at hwf
        rcases hwf with rfl | rfl | rfl
        · exact .int
        · exact .long
        · exact .string) hc
    rw [show resolve (fun _ => true) (demo true).dv thin.env (withRootAlias thinQ qP).env thinDatum thin.root
      (withRootAlias thinQ qP).root = some (.record [.bytes (txt "z"), .int 7, .double 0x4000000000000000]) by
        with_unfolding_all rfl] at this
    exact this

/-- A list, as the writer has it, -/
def listP : Schema := one qP [fld "v" .int, fld "next" (.union [.null, .ref qP])]
/-- and with another name. -/
def listR : Schema := one qR [fld "v" .int, fld "next" (.union [.null, .ref qR])]

/-- C75 does not hold for a record that contains itself: a list of two cannot be read under the
other name, although it can if the name is an alias. -/
theorem lax_recursive_fails :
    Deserializes (demo true) listP (withRootAlias listR qP) [[2, 2, 4, 0]]
      (.value (.record [.int 1, .union 1 (some (.record [.int 2, .nil]))]) [[]]) ∧
    DeserializesLax (demo true) listP listR [[2, 2, 4, 0]] .failed :=
  ⟨runs true 12 200 (by decide +kernel), runsLax true 12 200 (by decide +kernel)⟩

/-- With the option, too, names matter in fields: `ex.P` is not read as `R` there. -/
theorem lax_field_refused :
    DeserializesLax (demo true)
      { env := [(qP, { name := qP, kind := .record [fld "a" .int] }), (qX1, { name := qX1, kind := .record [fld "f" (.ref qP)] })],
        root := .ref qX1 }
      { env := [(qR, { name := qR, kind := .record [fld "a" .int] }), (qX1, { name := qX1, kind := .record [fld "f" (.ref qR)] })],
        root := .ref qX1 } [[2]] .refused :=
  runsLax true 12 200 (by decide +kernel)

def fixedIn (n : Int) : Schema :=
  { env := [(qY, { name := qY, kind := .fixed n }), (qP, { name := qP, kind := .record [fld "f" (.union [.null, .ref qY])] })],
    root := .ref qP }
/-- C75: the option switches off more than the check of names: four bytes are read as a fixed of
size two, which is refused without it. -/
theorem lax_fixed_cut :
    Deserializes (demo true) (fixedIn 4) (fixedIn 2) [[2, 1, 2, 3, 4]] .refused ∧
    DeserializesLax (demo true) (fixedIn 4) (fixedIn 2) [[2, 1, 2, 3, 4]] (.value (.record [.union 1 (some (.fixed [1, 2]))]) []) :=
  ⟨runs true 12 200 (by decide +kernel), runsLax true 12 200 (by decide +kernel)⟩

/-- A field that cannot be read, whatever the names. -/
example : Refused true (one qP [fld "a" .string]).env (one qR [fld "a" .int]).env (.ref qP) (some (.ref qR)) := by
  have h : DeserializesLax (demo true) (one qP [fld "a" .string]) (one qR [fld "a" .int]) [] .refused :=
    runsLax true 9 9 (by decide +kernel)
  cases h with
  | refused h => exact lax_error_reason (suited_of (by decide +kernel)) h

end Verif.Props
