import Verif.Props.DefaultCode
import Verif.Props.Text
/-
That the theorem of Props/DefaultCode applies: the schema of Props/DefaultsEx, which has a default for every kind of
type, and the text that is written for it.
-/
namespace Verif.Props
open Verif Spec Spec.Go Spec.GoD
set_option linter.unusedVariables false

/-! Checks for concrete packages. -/

def letterB (s : Str) : Bool := match s.dropWhile (· == '_') with
  | [] => false
  | c :: _ => decide (Letter c)

theorem letter_of {s : Str} (h : letterB s = true) : LetterFirst s := by
  unfold letterB at h
  split at h
  · cases h
  · rename_i c cs e
    refine ⟨s.takeWhile (· == '_'), c, cs, ?_, fun x hx => ?_, of_decide_eq_true h⟩
    · rw [← e, List.takeWhile_append_dropWhile]
    · have := List.all_takeWhile (l := s) (p := (· == '_'))
      rw [List.all_eq_true] at this
      exact eq_of_beq (this x hx)

/-- A name in the namespace `ex`. -/
def inEx (q : QName) : Bool := decide (q.str = "ex".toList ++ '.' :: q.name) && decide (LegalName q.name) && letterB q.name

theorem dotted_of {q : QName} (h : inEx q = true) : Dotted q.str := by
  simp only [inEx, Bool.and_eq_true, decide_eq_true_eq] at h
  obtain ⟨⟨h1, h2⟩, h3⟩ := h
  rw [h1]
  exact .cons (by decide +kernel) ⟨[], 'e', ['x'], by decide +kernel, by simp, by decide⟩ (.one h2 (letter_of h3))

mutual
def namedTyB (n : NS) : PTy → Bool
  | .prim _ _ => true
  | .array t _ => namedTyB n t
  | .map t _ => namedTyB n t
  | .union name ts _ => decide (name = []) && namedTysB n ts
  | .ref q => match n.find q with
    | none => false
    | some d => inEx d.name
def namedTysB (n : NS) : List PTy → Bool
  | [] => true
  | t :: ts => namedTyB n t && namedTysB n ts
end

mutual
theorem namedTy_of {n : NS} : ∀ {t : PTy}, namedTyB n t = true → NamedTy n t
  | .prim _ _, _ => trivial
  | .array t _, h => namedTy_of (t := t) h
  | .map t _, h => namedTy_of (t := t) h
  | .union name ts _, h => by
    simp only [namedTyB, Bool.and_eq_true, decide_eq_true_eq] at h
    exact ⟨.inl h.1, namedTys_of h.2⟩
  | .ref q, h => by
    simp only [namedTyB] at h
    split at h
    · cases h
    · rename_i d hd; exact ⟨d, hd, dotted_of h⟩
theorem namedTys_of {n : NS} : ∀ {ts : List PTy}, namedTysB n ts = true → NamedTys n ts
  | [], _ => trivial
  | t :: ts, h => by
    simp only [namedTysB, Bool.and_eq_true] at h
    exact ⟨namedTy_of h.1, namedTys_of h.2⟩
end

def legalB (P : Spec.GoD.Package) : Bool := P.n.defs.all fun x => inEx x.2.name && match x.2.kind with
  | .record fs _ => fs.all (fun f => decide (LegalName f.name) && letterB f.name && namedTyB P.n f.ty) &&
      decide (fs.map fun f => fieldGoName P.nm f.name).Nodup
  | .enum syms _ _ => syms.all fun s => decide (LegalName s)
  | .fixed _ => true

theorem find_mem {n : NS} {q : QName} {d : PDef} (h : n.find q = some d) : ∃ q', (q', d) ∈ n.defs := by
  unfold NS.find at h
  generalize n.defs = l at h ⊢
  induction l with
  | nil => cases h
  | cons x l ih =>
    obtain ⟨a, b⟩ := x
    rw [List.lookup_cons] at h
    split at h
    · cases h; exact ⟨a, List.mem_cons_self ..⟩
    · obtain ⟨q', hq⟩ := ih h; exact ⟨q', List.mem_cons_of_mem _ hq⟩

theorem legal_of {P : Spec.GoD.Package} (h : legalB P = true) : Legal P := by
  have h' : ∀ q d, P.n.find q = some d → (inEx d.name && match d.kind with
      | .record fs _ => fs.all (fun f => decide (LegalName f.name) && letterB f.name && namedTyB P.n f.ty) &&
          decide (fs.map fun f => fieldGoName P.nm f.name).Nodup
      | .enum syms _ _ => syms.all fun s => decide (LegalName s)
      | .fixed _ => true) = true := by
    intro q d hq
    obtain ⟨q', hm⟩ := find_mem hq
    exact List.all_eq_true.1 h _ hm
  refine ⟨fun q d hq => ?_, fun q d fs doc hq hk f hf => ?_, fun q d fs doc hq hk => ?_, fun q d syms doc v hq hk s hs => ?_⟩
  · have := h' q d hq
    rw [Bool.and_eq_true] at this
    exact dotted_of this.1
  · have := h' q d hq
    rw [hk, Bool.and_eq_true] at this
    have := this.2
    rw [Bool.and_eq_true, List.all_eq_true] at this
    have := this.1 f hf
    simp only [Bool.and_eq_true, decide_eq_true_eq] at this
    exact ⟨this.1.1, letter_of this.1.2, namedTy_of this.2⟩
  · have := h' q d hq
    rw [hk, Bool.and_eq_true] at this
    have := this.2
    rw [Bool.and_eq_true] at this
    exact of_decide_eq_true this.2
  · have := h' q d hq
    rw [hk, Bool.and_eq_true] at this
    exact of_decide_eq_true (List.all_eq_true.1 this.2 s hs)

/-- The text, if there is one. -/
def ofMade (x : Made Str) : Str := match x with
  | .ok s => s
  | .error _ => []

def recordOf (n : NS) (q : QName) : Option (PDef × List PField) := match n.find q with
  | none => none
  | some d => match d.kind with
    | .record fs _ => some (d, fs)
    | _ => none

def ctorOf (P : Spec.GoD.Package) (print : Char → Bool) (k : Nat) (q : QName) : Str := match recordOf P.n q with
  | none => []
  | some (d, fs) => ofMade (constructorText P.nm P.n print k (d.goName P.nm) fs)
def setOf (P : Spec.GoD.Package) (print : Char → Bool) (k : Nat) (q : QName) : Str := match recordOf P.n q with
  | none => []
  | some (d, fs) => ofMade (setDefaultText P.nm P.n print k (d.goName P.nm) fs)

def isMade {α : Type} (x : Made α) : Bool := match x with
  | .ok _ => true
  | .error _ => false

def emittedB (P : Spec.GoD.Package) (print : Char → Bool) (k : Nat) : Bool := P.n.defs.all fun x => match x.2.kind with
  | .record fs _ => isMade (constructorText P.nm P.n print k (x.2.goName P.nm) fs) && isMade (setDefaultText P.nm P.n print k (x.2.goName P.nm) fs)
  | _ => true

theorem ofMade_of {x : Made Str} (h : isMade x = true) : x = .ok (ofMade x) := by
  cases x with
  | ok s => rfl
  | error e => cases h

theorem emitted_of {P : Spec.GoD.Package} {print : Char → Bool} {k : Nat} (h : emittedB P print k = true) : Emitted P print (ctorOf P print k) (setOf P print k) := by
  have h' : ∀ q d fs doc, P.n.find q = some d → d.kind = .record fs doc → isMade (constructorText P.nm P.n print k (d.goName P.nm) fs) = true ∧
      isMade (setDefaultText P.nm P.n print k (d.goName P.nm) fs) = true := by
    intro q d fs doc hq hk
    obtain ⟨q', hm⟩ := find_mem hq
    have := List.all_eq_true.1 h _ hm
    dsimp only at this
    rw [hk] at this
    dsimp only at this
    exact Bool.and_eq_true_iff.1 this
  refine ⟨fun q d fs doc hq hk => ⟨k, ?_⟩, fun q d fs doc hq hk => ⟨k, ?_⟩⟩
  · have e : ctorOf P print k q = ofMade (constructorText P.nm P.n print k (d.goName P.nm) fs) := by simp only [ctorOf, recordOf, hq, hk]
    rw [e]; exact ofMade_of (h' q d fs doc hq hk).1
  · have e : setOf P print k q = ofMade (setDefaultText P.nm P.n print k (d.goName P.nm) fs) := by simp only [setOf, recordOf, hq, hk]
    rw [e]; exact ofMade_of (h' q d fs doc hq hk).2

/-! The schema. -/

mutual
def liftTy : Ty → PTy
  | .null => .prim .null .null
  | .bool => .prim .bool .null
  | .int => .prim .int .null
  | .long => .prim .long .null
  | .float => .prim .float .null
  | .double => .prim .double .null
  | .bytes => .prim .bytes .null
  | .string => .prim .string .null
  | .array t => .array (liftTy t) .null
  | .map t => .map (liftTy t) .null
  | .union ts => .union [] (liftTys ts) []
  | .ref q => .ref q
def liftTys : List Ty → List PTy
  | [] => []
  | t :: ts => liftTy t :: liftTys ts
end

def liftField (f : Field) : PField := ⟨f.name, liftTy f.ty, f.dflt, f.aliases, [], [], []⟩
def liftKind : DefKind → PKind
  | .record fs => .record (fs.map liftField) []
  | .enum ss d => .enum ss [] d
  | .fixed k => .fixed k

def dPackage : Spec.GoD.Package where
  nm := .simple
  n := { defs := dEnv.map fun x => (x.1, ⟨x.2.name, [], liftKind x.2.kind, []⟩) }

theorem dPackage_legal : Legal dPackage := legal_of (by decide +kernel)
theorem dPackage_emitted : Emitted dPackage asciiPrint (ctorOf dPackage asciiPrint 5) (setOf dPackage asciiPrint 5) := emitted_of (by decide +kernel)
theorem dPackage_new : New .simple dPackage.n.env qD dVals := new_of 5 (by decide +kernel)

/-- The theorem applies, and says what the statements in the text of `NewD()` return. -/
theorem dPackage_code : ∃ (bodies : QName → List Spec.GoD.St) (m : Nat), tokens (ctorOf dPackage asciiPrint 5 qD) = some (constructorToks "D".toList (bodies qD)) ∧
    makes dPackage bodies m (.ref qD) = .ok (.record dVals) := by
  obtain ⟨bodies, cases, h⟩ := default_code asciiPrint_printing dPackage_legal dPackage_emitted
  obtain ⟨h1, h2, -⟩ := h qD ⟨qD, [], .record (dFields.map liftField) [], []⟩ _ _ rfl rfl
  obtain ⟨m, hm⟩ := (h2 (.record dVals)).2 ⟨dVals, rfl, dPackage_new⟩
  exact ⟨bodies, m, (h1 dVals dPackage_new).1, hm⟩

/-- One of the texts. -/
example : setOf dPackage asciiPrint 5 qDP = cat ["\nfunc (r *P) SetDefault(i int) {\n\tswitch (i) {\n\tcase 0:\n       \t \tr.P = 3\n".toList,
    "\t\treturn\n\t}\n\tpanic(\"Unknown field index\")\n}\n".toList] := by decide +kernel

end Verif.Props
