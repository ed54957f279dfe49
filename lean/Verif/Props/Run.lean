import Verif.Props.ResolutionEx
/-
Running the model on concrete input, for counterexamples.
-/
namespace Verif.Props
open Verif
set_option linter.unusedVariables false
set_option linter.unusedSimpArgs false

mutual
/-- Whether two values are the same. -/
def valEq : Val → Val → Bool
  | .null, .null => true
  | .bool a, .bool b => a == b
  | .int a, .int b => a == b
  | .long a, .long b => a == b
  | .float a, .float b => a == b
  | .double a, .double b => a == b
  | .bytes a, .bytes b => a == b
  | .string a, .string b => a == b
  | .fixed a, .fixed b => a == b
  | .enum a, .enum b => a == b
  | .array a, .array b => valsEq a b
  | .map a, .map b => entriesEq a b
  | .nil, .nil => true
  | .union t none, .union t' none => t == t'
  | .union t (some a), .union t' (some b) => t == t' && valEq a b
  | .record a, .record b => valsEq a b
  | _, _ => false
def valsEq : List Val → List Val → Bool
  | [], [] => true
  | a :: l, b :: l' => valEq a b && valsEq l l'
  | _, _ => false
def entriesEq : List (List Byte × Val) → List (List Byte × Val) → Bool
  | [], [] => true
  | (k, a) :: l, (k', b) :: l' => k == k' && valEq a b && entriesEq l l'
  | _, _ => false
end

mutual
theorem valEq_eq : ∀ {a b : Val}, valEq a b = true → a = b
  | .null, b, h => by cases b <;> first | rfl | (simp [valEq] at h; done)
  | .bool a, b, h => by cases b <;> simp [valEq] at h; rw [h]
  | .int a, b, h => by cases b <;> simp [valEq] at h; rw [h]
  | .long a, b, h => by cases b <;> simp [valEq] at h; rw [h]
  | .float a, b, h => by cases b <;> simp [valEq] at h; rw [h]
  | .double a, b, h => by cases b <;> simp [valEq] at h; rw [h]
  | .bytes a, b, h => by cases b <;> simp [valEq] at h; rw [h]
  | .string a, b, h => by cases b <;> simp [valEq] at h; rw [h]
  | .fixed a, b, h => by cases b <;> simp [valEq] at h; rw [h]
  | .enum a, b, h => by cases b <;> simp [valEq] at h; rw [h]
  | .array a, b, h => by cases b <;> simp [valEq] at h; rw [valsEq_eq h]
  | .map a, b, h => by cases b <;> simp [valEq] at h; rw [entriesEq_eq h]
  | .nil, b, h => by cases b <;> first | rfl | (simp [valEq] at h; done)
  | .union t none, b, h => by
    cases b <;> try (simp [valEq] at h; done)
    rename_i t' v
    cases v <;> simp [valEq] at h
    rw [h]
  | .union t (some a), b, h => by
    cases b <;> try (simp [valEq] at h; done)
    rename_i t' v
    cases v <;> simp [valEq] at h
    rw [h.1, valEq_eq h.2]
  | .record a, b, h => by cases b <;> simp [valEq] at h; rw [valsEq_eq h]
theorem valsEq_eq : ∀ {a b : List Val}, valsEq a b = true → a = b
  | [], b, h => by cases b <;> first | rfl | (simp [valsEq] at h; done)
  | a :: l, b, h => by
    cases b <;> simp [valsEq] at h
    rw [valEq_eq h.1, valsEq_eq h.2]
theorem entriesEq_eq : ∀ {a b : List (List Byte × Val)}, entriesEq a b = true → a = b
  | [], b, h => by cases b <;> first | rfl | (simp [entriesEq] at h; done)
  | (k, a) :: l, b, h => by
    cases b with
    | nil => simp [entriesEq] at h
    | cons x b =>
      obtain ⟨k', v⟩ := x
      simp [entriesEq] at h
      rw [h.1.1, valEq_eq h.1.2, entriesEq_eq h.2]
end

/-- What `DeserializeXFromSchema` does, on the reader and with the settings of `demo`. -/
def runB (k : Bool) (n fuel : Nat) (w r : Schema) (rd : List (List Byte)) : Option (Res (List (List Byte))) :=
  match compileFuel n Orders.id false w r with
  | .error .fuel => none
  | .error _ => some .refused
  | .ok prog => match evalProg (demo k).ro (genOps r.env (demo k).lim (demo k).dv) prog fuel rd (.new r.env r.root none) with
    | .timeout => none
    | .err _ => some .failed
    | .done (rd', t) => match t.val with
      | some v => some (.value v rd')
      | none => some .junk

theorem run_of {k : Bool} {n fuel : Nat} {w r : Schema} {rd : List (List Byte)} {res : Res (List (List Byte))}
    (h : runB k n fuel w r rd = some res) : Deserializes (demo k) w r rd res := by
  unfold runB at h
  have key : ∀ x, compileFuel n Orders.id false w r = x → x ≠ .error .fuel → compile (demo k).ord false w r = x := by
    intro x hx hn
    show compile Orders.id false w r = x
    rw [compile_eq (n := n) (by rw [hx]; exact hn), hx]
  split at h
  · cases h
  · rename_i e hc hne
    cases h
    exact .refused (key _ hne (by simpa using hc))
  · rename_i prog hc
    have hc := key _ hc (by simp)
    split at h
    · cases h
    · rename_i e he
      cases h; exact .failed hc ⟨fuel, he⟩
    · rename_i rd' t he
      split at h
      · rename_i v hv
        cases h
        exact .value hc (t := t) ⟨fuel, he⟩ hv
      · rename_i hv
        cases h
        exact .junk hc (t := t) ⟨fuel, he⟩ hv

def resEq : Option (Res (List (List Byte))) → Option (Res (List (List Byte))) → Bool
  | some .refused, some .refused => true
  | some .failed, some .failed => true
  | some .junk, some .junk => true
  | some (.value v rd), some (.value v' rd') => valEq v v' && rd == rd'
  | _, _ => false

theorem resEq_eq {a b : Option (Res (List (List Byte)))} (h : resEq a b = true) : a = b := by
  unfold resEq at h
  split at h <;> first | rfl | (cases h; done) | skip
  simp at h
  rw [valEq_eq h.1, h.2]

/-- `DeserializeXFromSchema` ends with `res`. -/
theorem runs (k : Bool) (n fuel : Nat) {w r : Schema} {rd : List (List Byte)} {res : Res (List (List Byte))}
    (h : resEq (runB k n fuel w r rd) (some res) = true) : Deserializes (demo k) w r rd res :=
  run_of (resEq_eq h)

/-- The record graph goes downwards. -/
def groundedB (env : Env) (rank : QName → Nat) : Bool :=
  env.all fun x => (DefKind.fields x.2.kind).all fun f => match f.ty with
    | .ref q' => decide (rank q' < rank x.1)
    | _ => true

theorem grounded_of {env : Env} (rank : QName → Nat) (h : groundedB env rank = true) : Grounded env := by
  refine ⟨rank, ?_⟩
  intro q d fs hq hk f hf q' hr
  have h1 := List.all_eq_true.1 h _ (Env.find_mem hq)
  simp only [hk, DefKind.fields] at h1
  have h2 := List.all_eq_true.1 h1 f hf
  rw [hr] at h2
  simpa using h2

end Verif.Props
