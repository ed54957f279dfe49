import Verif.Compiler.Nulls
import Verif.Gen.BadIndexProof
/-
Schemas and values used to show that the hypotheses of the property theorems can be met.
-/
namespace Verif.Props
open Verif
set_option linter.unusedSimpArgs false
set_option linter.unusedVariables false

def qColor : QName := ⟨"ex".toList, "Color".toList⟩
def qId : QName := ⟨"ex".toList, "Id".toList⟩
def qNode : QName := ⟨"ex".toList, "Node".toList⟩

def nodeFields : List Field :=
  [{ name := "value".toList, ty := .long },
   { name := "name".toList, ty := .string },
   { name := "color".toList, ty := .ref qColor },
   { name := "id".toList, ty := .ref qId },
   { name := "tags".toList, ty := .array .string },
   { name := "attrs".toList, ty := .map .int },
   { name := "next".toList, ty := .union [.null, .ref qNode] },
   { name := "alt".toList, ty := .union [.int, .string] }]

def colorDef : Def := { name := qColor, kind := .enum ["RED".toList, "GREEN".toList] [] }
def idDef : Def := { name := qId, kind := .fixed 4 }
def nodeDef : Def := { name := qNode, kind := .record nodeFields }

/-- A linked list with one field of each kind. -/
def sample : Schema := { env := [(qColor, colorDef), (qId, idDef), (qNode, nodeDef)], root := .ref qNode }

/-- A reader for `sample`: other order, renamed and promoted fields, a default, dropped
fields, other positions of symbols and members. -/
def nodeFieldsR : List Field :=
  [{ name := "label".toList, aliases := ["name".toList], ty := .bytes },
   { name := "extra".toList, ty := .int, dflt := some (.num 7) },
   { name := "next".toList, ty := .union [.ref qNode, .null] },
   { name := "color".toList, ty := .ref qColor },
   { name := "attrs".toList, ty := .map .long },
   { name := "tags".toList, ty := .array .string },
   { name := "value".toList, ty := .double }]

def colorDefR : Def := { name := qColor, kind := .enum ["BLUE".toList, "GREEN".toList] "BLUE".toList }
def nodeDefR : Def := { name := qNode, kind := .record nodeFieldsR }
def sampleR : Schema := { env := [(qColor, colorDefR), (qNode, nodeDefR)], root := .ref qNode }

theorem sample_find {q d} (h : sample.env.find q = some d) :
    (q = qColor ∧ d = colorDef) ∨ (q = qId ∧ d = idDef) ∨ (q = qNode ∧ d = nodeDef) := by
  have := Env.find_mem h
  simpa [sample] using this

theorem sampleR_find {q d} (h : sampleR.env.find q = some d) :
    (q = qColor ∧ d = colorDefR) ∨ (q = qNode ∧ d = nodeDefR) := by
  have := Env.find_mem h
  simpa [sampleR] using this

theorem sample_node {q d fs} (h : sample.env.find q = some d) (hk : d.kind = .record fs) :
    q = qNode ∧ d = nodeDef ∧ fs = nodeFields := by
  rcases sample_find h with ⟨rfl, rfl⟩ | ⟨rfl, rfl⟩ | ⟨rfl, rfl⟩
  · cases hk
  · cases hk
  · cases hk; exact ⟨rfl, rfl, rfl⟩

theorem sampleR_node {q d fs} (h : sampleR.env.find q = some d) (hk : d.kind = .record fs) :
    q = qNode ∧ d = nodeDefR ∧ fs = nodeFieldsR := by
  rcases sampleR_find h with ⟨rfl, rfl⟩ | ⟨rfl, rfl⟩
  · cases hk
  · cases hk; exact ⟨rfl, rfl, rfl⟩

/-- No field is found under the name of another: a check. -/
def apartB (fs : List Field) : Bool :=
  (List.range fs.length).all fun i => (List.range fs.length).all fun j =>
    match fs[i]?, fs[j]? with
    | some f, some g => !(g.name == f.name || g.aliases.contains f.name) || i == j
    | _, _ => true

theorem apart_of {fs : List Field} (h : apartB fs = true) : ∀ (i j : Nat) (f g : Field), fs[i]? = some f →
    fs[j]? = some g → (g.name = f.name ∨ f.name ∈ g.aliases) → i = j := by
  intro i j f g hi hj hn
  have hi' := (List.getElem?_eq_some_iff.1 hi).1
  have hj' := (List.getElem?_eq_some_iff.1 hj).1
  simp only [apartB, List.all_eq_true, List.mem_range] at h
  have := h i hi' j hj'
  rw [hi, hj] at this
  simp only [Bool.or_eq_true, Bool.not_eq_true', Bool.or_eq_false_iff, beq_eq_false_iff_ne, beq_iff_eq,
    List.contains_eq_mem, decide_eq_false_iff_not] at this
  rcases this with ⟨h1, h2⟩ | h
  · rcases hn with h | h
    · exact absurd h h1
    · exact absurd h h2
  · exact h

theorem sample_wellFormed : WellFormed sample where
  names := by
    intro q q' d d' h h' he
    rcases sample_find h with ⟨rfl, rfl⟩ | ⟨rfl, rfl⟩ | ⟨rfl, rfl⟩ <;>
      rcases sample_find h' with ⟨rfl, rfl⟩ | ⟨rfl, rfl⟩ | ⟨rfl, rfl⟩ <;> first | rfl | (exact absurd he (by decide))
  sizes := by
    intro q d n h hk
    rcases sample_find h with ⟨rfl, rfl⟩ | ⟨rfl, rfl⟩ | ⟨rfl, rfl⟩ <;> simp [colorDef, idDef, nodeDef] at hk
    omega
  apart := by
    intro q d fs h hk
    obtain ⟨rfl, rfl, rfl⟩ := sample_node h hk
    exact apart_of (by decide)
  symbols := by
    intro q d ss df h hk
    rcases sample_find h with ⟨rfl, rfl⟩ | ⟨rfl, rfl⟩ | ⟨rfl, rfl⟩ <;> simp [colorDef, idDef, nodeDef] at hk
    rw [← hk.1]; decide
  closedFields := by
    intro q d fs f h hk hf
    obtain ⟨rfl, rfl, rfl⟩ := sample_node h hk
    simp only [nodeFields, List.mem_cons, List.not_mem_nil, or_false] at hf
    rcases hf with rfl | rfl | rfl | rfl | rfl | rfl | rfl | rfl
    · trivial
    · trivial
    · exact ⟨colorDef, rfl⟩
    · exact ⟨idDef, rfl⟩
    · trivial
    · trivial
    · exact ⟨by simp, by decide +kernel, trivial, ⟨nodeDef, rfl⟩, trivial⟩
    · exact ⟨by simp, by decide +kernel, trivial, trivial, trivial⟩
  closedRoot := ⟨nodeDef, rfl⟩
  grounded := by
    refine ⟨fun q => if q = qNode then 1 else 0, ?_⟩
    intro q d fs h hk f hf q' hq
    obtain ⟨rfl, rfl, rfl⟩ := sample_node h hk
    simp only [nodeFields, List.mem_cons, List.not_mem_nil, or_false] at hf
    rcases hf with rfl | rfl | rfl | rfl | rfl | rfl | rfl | rfl <;> simp only at hq <;> cases hq <;> decide +kernel
  top := .inl ⟨_, nodeDef, _, rfl, rfl, rfl⟩
  tidyFields := by
    intro q d fs f h hk hf
    obtain ⟨rfl, rfl, rfl⟩ := sample_node h hk
    simp only [nodeFields, List.mem_cons, List.not_mem_nil, or_false] at hf
    rcases hf with rfl | rfl | rfl | rfl | rfl | rfl | rfl | rfl <;> rfl
  tidyRoot := rfl
  distinct := by
    intro q q' d d' fs fs' h h' hk hk' he
    obtain ⟨rfl, rfl, rfl⟩ := sample_node h hk
    obtain ⟨rfl, rfl, rfl⟩ := sample_node h' hk'
    rfl
  aliases := by
    intro q d q1 q2 r1 r2 fs fs1 fs2 _ h1 h2 _ hk1 hk2 _ _
    obtain ⟨rfl, rfl, rfl⟩ := sample_node h1 hk1
    obtain ⟨rfl, rfl, rfl⟩ := sample_node h2 hk2
    rfl
  plain := by
    intro q d h
    rcases sample_find h with ⟨rfl, rfl⟩ | ⟨rfl, rfl⟩ | ⟨rfl, rfl⟩ <;> decide +kernel

theorem sample_suited : Suited sample sampleR where
  namesW := sample_wellFormed.names
  namesR := by
    intro q q' d d' h h' he
    rcases sampleR_find h with ⟨rfl, rfl⟩ | ⟨rfl, rfl⟩ <;>
      rcases sampleR_find h' with ⟨rfl, rfl⟩ | ⟨rfl, rfl⟩ <;> first | rfl | (exact absurd he (by decide))
  sizes := sample_wellFormed.sizes
  tidyW := sample_wellFormed.tidyFields
  tidyR := by
    intro q d fs f h hk hf
    obtain ⟨rfl, rfl, rfl⟩ := sampleR_node h hk
    simp only [nodeFieldsR, List.mem_cons, List.not_mem_nil, or_false] at hf
    rcases hf with rfl | rfl | rfl | rfl | rfl | rfl | rfl <;> rfl
  rootW := rfl
  rootR := rfl
  nulls := nullsAgree_inUnions (by
      intro q d fs f h hk hf
      obtain ⟨rfl, rfl, rfl⟩ := sample_node h hk
      simp only [nodeFields, List.mem_cons, List.not_mem_nil, or_false] at hf
      rcases hf with rfl | rfl | rfl | rfl | rfl | rfl | rfl | rfl <;> rfl)
    (by
      intro q d fs f h hk hf
      obtain ⟨rfl, rfl, rfl⟩ := sampleR_node h hk
      simp only [nodeFieldsR, List.mem_cons, List.not_mem_nil, or_false] at hf
      rcases hf with rfl | rfl | rfl | rfl | rfl | rfl | rfl <;> rfl) rfl (.inl rfl) sample_wellFormed.tidyFields rfl
    (by
      intro q d fs f h hk hf
      obtain ⟨rfl, rfl, rfl⟩ := sampleR_node h hk
      simp only [nodeFieldsR, List.mem_cons, List.not_mem_nil, or_false] at hf
      rcases hf with rfl | rfl | rfl | rfl | rfl | rfl | rfl <;> rfl) rfl
  distinct := sample_wellFormed.distinct
  one := by
    intro q d q1 q2 r1 r2 fs fs1 fs2 _ h1 h2 _ hk1 hk2 _ _
    obtain ⟨rfl, rfl, rfl⟩ := sampleR_node h1 hk1
    obtain ⟨rfl, rfl, rfl⟩ := sampleR_node h2 hk2
    rfl
  plain := by
    intro q d h
    rcases sampleR_find h with ⟨rfl, rfl⟩ | ⟨rfl, rfl⟩ <;> decide +kernel
  fields := by
    intro q d fs h hk
    obtain ⟨rfl, rfl, rfl⟩ := sampleR_node h hk
    decide +kernel
  top := .inl ⟨_, nodeDefR, _, rfl, rfl, rfl⟩

/-- ASCII text as bytes. -/
def txt (s : String) : List Byte := s.toList.map fun c => BitVec.ofNat 8 c.toNat

/-- A value of `sample`: a list of two nodes. -/
def leafVal : Val := .record [.long 5, .string (txt "b"), .enum 0, .fixed [1, 2, 3, 4], .array [], .map [], .nil,
  .union 0 (some (.int 3))]
def sampleVal : Val := .record [.long (BitVec.ofInt 64 (-70)), .string (txt "a"), .enum 1, .fixed [0, 255, 7, 9],
  .array [.string (txt "x"), .string (txt "yz")], .map [(txt "k", .int 1), (txt "m", .int 2)],
  .union 1 (some leafVal), .union 1 (some (.string (txt "q")))]

theorem leafVal_hasTy : HasTy sample.env 1000 leafVal (.ref qNode) := by
  refine ⟨_, nodeDef, nodeFields, rfl, rfl, rfl, ?_⟩
  refine ⟨_, _, rfl, rfl, _, _, rfl, ⟨rfl, by decide⟩, _, _, rfl, ⟨_, colorDef, _, _, rfl, rfl, rfl, by decide⟩, _, _, rfl,
    ⟨_, idDef, rfl, rfl, rfl⟩, _, _, rfl, ⟨_, rfl, by decide, trivial⟩, _, _, rfl,
    ⟨_, rfl, by decide, by simp [Sorted], trivial⟩, _, _, rfl, ⟨_, rfl, rfl, by decide⟩, _, _, rfl,
    ⟨_, _, rfl, rfl, by decide, rfl, rfl⟩, rfl⟩

theorem sampleVal_hasTy : HasTy sample.env 1000 sampleVal sample.root := by
  refine ⟨_, nodeDef, nodeFields, rfl, rfl, rfl, ?_⟩
  refine ⟨_, _, rfl, rfl, _, _, rfl, ⟨rfl, by decide⟩, _, _, rfl, ⟨_, colorDef, _, _, rfl, rfl, rfl, by decide⟩, _, _, rfl,
    ⟨_, idDef, rfl, rfl, rfl⟩, _, _, rfl, ⟨_, rfl, by decide, ⟨rfl, by decide⟩, ⟨rfl, by decide⟩, trivial⟩, _, _, rfl,
    ⟨_, rfl, by decide, by simp [Sorted]; decide, by decide, rfl, by decide, rfl, trivial⟩, _, _, rfl,
    ⟨_, _, rfl, rfl, by decide, rfl, leafVal_hasTy⟩, _, _, rfl,
    ⟨_, _, rfl, rfl, by decide, rfl, rfl, by decide⟩, rfl⟩
end Verif.Props
