import Verif.Compiler.Nulls
import Verif.Props.Sample
import Verif.Wire.Chunked
/-
Small schemas: one record whose fields are primitive or unions of primitives. Used for
counterexamples.
-/
namespace Verif.Props
open Verif
set_option linter.unusedSimpArgs false
set_option linter.unusedVariables false

/-- A reader that delivers its input in pieces, with `ReadByte` or without. -/
def demo (k : Bool) : Setting (List (List Byte)) :=
  { ro := chunkOps k, lim := 1000, dv := fun _ => .int 7, ord := Orders.id }

theorem demo_delivers (k : Bool) : (demo k).ro.Delivers List.flatten := chunkOps_delivers k

/-- Types that need no definitions and are neither null nor a union nor a collection. -/
def Ty.isPrim : Ty → Bool
  | .bool | .int | .long | .float | .double | .bytes | .string => true
  | _ => false

/-- A primitive type. -/
def primField (f : Field) : Bool := Ty.isPrim f.ty

theorem isPrim_facts {t : Ty} (h : Ty.isPrim t = true) (env : Env) :
    t.Closed env ∧ t.tidy = true ∧ (∀ q, t ≠ .ref q) := by
  cases t <;> simp [Ty.isPrim] at h <;> exact ⟨trivial, rfl, by intro q h; cases h⟩

def one (q : QName) (fs : List Field) : Schema := { env := [(q, { name := q, kind := .record fs })], root := .ref q }

theorem one_find {q : QName} {fs : List Field} {q' d} (h : (one q fs).env.find q' = some d) :
    q' = q ∧ d = { name := q, kind := .record fs } := by
  have := Env.find_mem h
  simpa [one] using this

theorem one_wellFormed {q : QName} {fs : List Field} (hp : fs.all primField = true) (ha : apartB fs = true)
    (hq : PlainNames (one q fs).env) : WellFormed (one q fs) where
  names := by
    intro q q' d d' h h' he
    obtain ⟨rfl, rfl⟩ := one_find h
    obtain ⟨rfl, rfl⟩ := one_find h'
    rfl
  sizes := by
    intro q d n h hk
    obtain ⟨rfl, rfl⟩ := one_find h
    cases hk
  apart := by
    intro q d fs h hk
    obtain ⟨rfl, rfl⟩ := one_find h
    cases hk
    exact apart_of ha
  symbols := by
    intro q d ss df h hk
    obtain ⟨rfl, rfl⟩ := one_find h
    cases hk
  closedFields := by
    intro q d fs f h hk hf
    obtain ⟨rfl, rfl⟩ := one_find h
    cases hk
    exact (isPrim_facts (List.all_eq_true.1 hp f hf) _).1
  closedRoot := ⟨{ name := q, kind := .record fs }, by simp [one, Env.find]⟩
  grounded := by
    refine ⟨fun _ => 0, ?_⟩
    intro q d fs h hk f hf q' hr
    obtain ⟨rfl, rfl⟩ := one_find h
    cases hk
    exact absurd hr ((isPrim_facts (List.all_eq_true.1 hp f hf) []).2.2 q')
  top := .inl ⟨_, { name := q, kind := .record fs }, _, rfl, by simp [one, Env.find], rfl⟩
  tidyFields := by
    intro q d fs f h hk hf
    obtain ⟨rfl, rfl⟩ := one_find h
    cases hk
    exact (isPrim_facts (List.all_eq_true.1 hp f hf) []).2.1
  tidyRoot := rfl
  distinct := by
    intro q q' d d' fs fs' h h' hk hk' he
    obtain ⟨rfl, rfl⟩ := one_find h
    obtain ⟨rfl, rfl⟩ := one_find h'
    rfl
  aliases := by
    intro q d q1 q2 r1 r2 fs fs1 fs2 _ h1 h2 _ hk1 hk2 _ _
    obtain ⟨rfl, rfl⟩ := one_find h1
    obtain ⟨rfl, rfl⟩ := one_find h2
    rfl
  plain := hq

/-- `{"type":"record","name":"Flag","fields":[{"name":"on","type":"boolean"}]}` -/
def qFlag : QName := ⟨[], "Flag".toList⟩
def flag : Schema := one qFlag [{ name := "on".toList, ty := .bool }]

theorem flag_wellFormed : WellFormed flag :=
  one_wellFormed (by decide) (by decide) (by
    intro q d h
    obtain ⟨rfl, rfl⟩ := one_find h
    decide +kernel)

/-- `["null","int"]` -/
def optInt : Schema := { env := [], root := .union [.null, .int] }

theorem optInt_wellFormed : WellFormed optInt where
  names := by intro q q' d d' h; cases h
  sizes := by intro q d n h; cases h
  apart := by intro q d fs h; cases h
  symbols := by intro q d ss df h; cases h
  closedFields := by intro q d fs f h; cases h
  closedRoot := ⟨by simp, by decide +kernel, trivial, trivial, trivial⟩
  grounded := ⟨fun _ => 0, by intro q d fs h; cases h⟩
  top := .inr rfl
  tidyFields := by intro q d fs f h; cases h
  tidyRoot := rfl
  distinct := by intro q q' d d' fs fs' h; cases h
  aliases := by intro q d q1 q2 r1 r2 fs fs1 fs2 h; cases h
  plain := by intro q d h; cases h

/-- A record with an enum and an int, and a reader that has the int only. -/
def qE : QName := ⟨[], "E".toList⟩
def qR : QName := ⟨[], "R".toList⟩
def enumFields : List Field := [{ name := "e".toList, ty := .ref qE }, { name := "n".toList, ty := .int }]
def enumW : Schema :=
  { env := [(qE, { name := qE, kind := .enum ["A".toList] [] }), (qR, { name := qR, kind := .record enumFields })],
    root := .ref qR }
def enumR : Schema := one qR [{ name := "n".toList, ty := .int }]

theorem enumR_wellFormed : WellFormed enumR :=
  one_wellFormed (by decide) (by decide) (by
    intro q d h
    obtain ⟨rfl, rfl⟩ := one_find h
    decide +kernel)

theorem enumW_find {q d} (h : enumW.env.find q = some d) :
    (q = qE ∧ d = { name := qE, kind := .enum ["A".toList] [] }) ∨ (q = qR ∧ d = { name := qR, kind := .record enumFields }) := by
  have := Env.find_mem h
  simpa [enumW] using this

theorem enumW_node {q d fs} (h : enumW.env.find q = some d) (hk : d.kind = .record fs) :
    q = qR ∧ d = { name := qR, kind := .record enumFields } ∧ fs = enumFields := by
  rcases enumW_find h with ⟨rfl, rfl⟩ | ⟨rfl, rfl⟩
  · cases hk
  · cases hk; exact ⟨rfl, rfl, rfl⟩

theorem enum_suited : Suited enumW enumR where
  namesW := by
    intro q q' d d' h h' he
    rcases enumW_find h with ⟨rfl, rfl⟩ | ⟨rfl, rfl⟩ <;>
      rcases enumW_find h' with ⟨rfl, rfl⟩ | ⟨rfl, rfl⟩ <;> first | rfl | (exact absurd he (by decide))
  namesR := enumR_wellFormed.names
  sizes := by
    intro q d n h hk
    rcases enumW_find h with ⟨rfl, rfl⟩ | ⟨rfl, rfl⟩ <;> cases hk
  tidyW := by
    intro q d fs f h hk hf
    obtain ⟨rfl, rfl, rfl⟩ := enumW_node h hk
    simp only [enumFields, List.mem_cons, List.not_mem_nil, or_false] at hf
    rcases hf with rfl | rfl <;> rfl
  tidyR := enumR_wellFormed.tidyFields
  rootW := rfl
  rootR := rfl
  nulls := nullsAgree_inUnions (by
      intro q d fs f h hk hf
      obtain ⟨rfl, rfl, rfl⟩ := enumW_node h hk
      simp only [enumFields, List.mem_cons, List.not_mem_nil, or_false] at hf
      rcases hf with rfl | rfl <;> rfl)
    (by
      intro q d fs f h hk hf
      obtain ⟨rfl, rfl⟩ := one_find h
      cases hk
      simp only [List.mem_cons, List.not_mem_nil, or_false] at hf
      subst hf; rfl) rfl (.inl rfl) (by
      intro q d fs f h hk hf
      obtain ⟨rfl, rfl, rfl⟩ := enumW_node h hk
      simp only [enumFields, List.mem_cons, List.not_mem_nil, or_false] at hf
      rcases hf with rfl | rfl <;> rfl) rfl enumR_wellFormed.tidyFields rfl
  distinct := by
    intro q q' d d' fs fs' h h' hk hk' he
    obtain ⟨rfl, rfl, rfl⟩ := enumW_node h hk
    obtain ⟨rfl, rfl, rfl⟩ := enumW_node h' hk'
    rfl
  one := by
    intro q d q1 q2 r1 r2 fs fs1 fs2 _ h1 h2 _ hk1 hk2 _ _
    obtain ⟨rfl, rfl⟩ := one_find h1
    obtain ⟨rfl, rfl⟩ := one_find h2
    rfl
  plain := enumR_wellFormed.plain
  fields := enumR_wellFormed.apart.nodup
  top := enumR_wellFormed.top

theorem compiles_of {n : Nat} {w r : Schema} (h : (compileFuel n Orders.id false w r).isOk = true) :
    ∃ prog, compile Orders.id false w r = .ok prog := by
  cases hc : compileFuel n Orders.id false w r with
  | error e => rw [hc] at h; cases h
  | ok prog => exact ⟨prog, by rw [compile_eq (n := n) (by rw [hc]; intro h; cases h), hc]⟩

theorem sample_compiles : ∃ prog, compile Orders.id false sample sampleR = .ok prog :=
  compiles_of (n := 12) (by decide +kernel)
theorem enum_compiles : ∃ prog, compile Orders.id false enumW enumR = .ok prog :=
  compiles_of (n := 12) (by decide +kernel)

/-! ### a datum of `sample` and its encodings -/

def leafDatum : Datum := .record [.long 5, .string (txt "b"), .enum 0, .fixed [1, 2, 3, 4], .array [], .map [],
  .union 0 .null, .union 0 (.int 3)]
def sampleDatum : Datum := .record [.long (BitVec.ofInt 64 (-70)), .string (txt "a"), .enum 1, .fixed [0, 255, 7, 9],
  .array [.string (txt "x"), .string (txt "yz")], .map [(txt "k", .int 1), (txt "m", .int 2)],
  .union 1 leafDatum, .union 1 (.string (txt "q"))]
/-- What `sampleR` makes of it. -/
def sampleValR : Val := .record [.bytes (txt "a"), .int 7,
  .union 0 (some (.record [.bytes (txt "b"), .int 7, .nil, .enum 0, .map [], .array [], .double 0x4014000000000000])),
  .enum 1, .map [(txt "k", .long 1), (txt "m", .long 2)], .array [.string (txt "x"), .string (txt "yz")],
  .double 0xC051800000000000]

def tagItems : List (List Byte) := [[2, 0x78], [4, 0x79, 0x7a]]
def attrItems : List (List Byte) := [[2, 0x6b, 2], [2, 0x6d, 4]]
/-- The encoding of `sampleDatum` with the blocks `a` and `m`. -/
def sampleBytes (a m : List Byte) : List Byte :=
  [0x8b, 1, 2, 0x61, 2, 0, 255, 7, 9] ++ (a ++ (m ++ [2, 10, 2, 0x62, 0, 1, 2, 3, 4, 0, 0, 0, 0, 6, 2, 2, 0x71]))
/-- One block each. -/
def tags1 : List Byte := [4, 2, 0x78, 4, 0x79, 0x7a, 0]
def attrs1 : List Byte := [4, 2, 0x6b, 2, 2, 0x6d, 4, 0]
/-- One entry per block, sized or not. -/
def tags2 : List Byte := [1, 4, 2, 0x78, 2, 4, 0x79, 0x7a, 0]
def attrs2 : List Byte := [2, 2, 0x6b, 2, 1, 6, 2, 0x6d, 4, 0]

theorem encLong0 : encLong 0 = [0] := by decide +kernel

theorem tags1_blocks : Blocks tagItems tags1 := by
  have : tags1 = encLong tagItems.length ++ tagItems.flatten ++ encLong 0 := by decide +kernel
  rw [this]; exact .counted tagItems [] _ (by simp [tagItems]) .done
theorem attrs1_blocks : Blocks attrItems attrs1 := by
  have : attrs1 = encLong attrItems.length ++ attrItems.flatten ++ encLong 0 := by decide +kernel
  rw [this]; exact .counted attrItems [] _ (by simp [attrItems]) .done
theorem tags2_blocks : Blocks tagItems tags2 := by
  have : tags2 = encLong (-([[2, 0x78]] : List (List Byte)).length) ++ encLong ([[2, 0x78]] : List (List Byte)).flatten.length ++
    ([[2, 0x78]] : List (List Byte)).flatten ++ (encLong ([[4, 0x79, 0x7a]] : List (List Byte)).length ++
      ([[4, 0x79, 0x7a]] : List (List Byte)).flatten ++ encLong 0) := by decide +kernel
  rw [this]; exact .sized [_] _ _ (by simp) (.counted [_] [] _ (by simp) .done)
theorem attrs2_blocks : Blocks attrItems attrs2 := by
  have : attrs2 = encLong ([[2, 0x6b, 2]] : List (List Byte)).length ++ ([[2, 0x6b, 2]] : List (List Byte)).flatten ++
    (encLong (-([[2, 0x6d, 4]] : List (List Byte)).length) ++ encLong ([[2, 0x6d, 4]] : List (List Byte)).flatten.length ++
      ([[2, 0x6d, 4]] : List (List Byte)).flatten ++ encLong 0) := by decide +kernel
  rw [this]; exact .counted [_] _ _ (by simp) (.sized [_] [] _ (by simp) .done)

theorem leaf_enc : Enc sample.env leafDatum (.ref qNode) [10, 2, 0x62, 0, 1, 2, 3, 4, 0, 0, 0, 0, 6] := by
  refine ⟨_, nodeDef, nodeFields, rfl, rfl, rfl, ?_⟩
  refine ⟨_, _, [10], [2, 0x62, 0, 1, 2, 3, 4, 0, 0, 0, 0, 6], rfl, ⟨rfl, by decide +kernel⟩, ?_, rfl⟩
  refine ⟨_, _, [2, 0x62], [0, 1, 2, 3, 4, 0, 0, 0, 0, 6], rfl, ⟨rfl, by decide +kernel⟩, ?_, rfl⟩
  refine ⟨_, _, [0], [1, 2, 3, 4, 0, 0, 0, 0, 6], rfl, ⟨_, colorDef, _, _, rfl, rfl, rfl, by decide +kernel, by decide +kernel, by decide +kernel⟩, ?_, rfl⟩
  refine ⟨_, _, [1, 2, 3, 4], [0, 0, 0, 0, 6], rfl, ⟨_, idDef, rfl, rfl, rfl, rfl⟩, ?_, rfl⟩
  refine ⟨_, _, [0], [0, 0, 0, 6], rfl, ⟨_, [], rfl, rfl, encLong0 ▸ .done⟩, ?_, rfl⟩
  refine ⟨_, _, [0], [0, 0, 6], rfl, ⟨_, [], rfl, rfl, encLong0 ▸ .done⟩, ?_, rfl⟩
  refine ⟨_, _, [0], [0, 6], rfl, ⟨_, _, [], rfl, rfl, ⟨rfl, rfl⟩, by decide +kernel⟩, ?_, rfl⟩
  refine ⟨_, _, [0, 6], [], rfl, ⟨_, _, [6], rfl, rfl, ⟨rfl, by decide +kernel⟩, by decide +kernel⟩, ?_, rfl⟩
  exact ⟨rfl, rfl⟩

theorem sample_enc {a m : List Byte} (ha : Blocks tagItems a) (hm : Blocks attrItems m) :
    Enc sample.env sampleDatum sample.root (sampleBytes a m) := by
  refine ⟨_, nodeDef, nodeFields, rfl, rfl, rfl, ?_⟩
  refine ⟨_, _, [0x8b, 1], _, rfl, ⟨rfl, by decide +kernel⟩, ?_, rfl⟩
  refine ⟨_, _, [2, 0x61], _, rfl, ⟨rfl, by decide +kernel⟩, ?_, rfl⟩
  refine ⟨_, _, [2], _, rfl, ⟨_, colorDef, _, _, rfl, rfl, rfl, by decide +kernel, by decide +kernel, by decide +kernel⟩, ?_, rfl⟩
  refine ⟨_, _, [0, 255, 7, 9], _, rfl, ⟨_, idDef, rfl, rfl, rfl, rfl⟩, ?_, rfl⟩
  refine ⟨_, _, a, _, rfl, ⟨_, tagItems, rfl,
    ⟨[2, 0x78], _, rfl, ⟨rfl, by decide +kernel⟩, [4, 0x79, 0x7a], _, rfl, ⟨rfl, by decide +kernel⟩, rfl⟩, ha⟩, ?_, rfl⟩
  refine ⟨_, _, m, _, rfl, ⟨_, attrItems, rfl,
    ⟨[2], [[2, 0x6d, 4]], by decide +kernel, ⟨rfl, by decide +kernel⟩, [4], [], by decide +kernel, ⟨rfl, by decide +kernel⟩, rfl⟩, hm⟩, ?_, rfl⟩
  refine ⟨_, _, 2 :: [10, 2, 0x62, 0, 1, 2, 3, 4, 0, 0, 0, 0, 6], [2, 2, 0x71], rfl,
    ⟨_, _, _, rfl, rfl, leaf_enc, by decide +kernel⟩, ?_, rfl⟩
  refine ⟨_, _, [2, 2, 0x71], [], rfl, ⟨_, _, [2, 0x71], rfl, rfl, ⟨rfl, by decide +kernel⟩, by decide +kernel⟩, ?_, rfl⟩
  exact ⟨rfl, rfl⟩

theorem sampleDatum_within : sampleDatum.within 1000 := by
  simp only [sampleDatum, leafDatum, Datum.within, Datum.allWithin, Datum.entriesWithin]
  decide

theorem sampleDatum_resolve : resolve Datum.skippable (fun _ => .int 7) sample.env sampleR.env sampleDatum
    sample.root sampleR.root = some sampleValR := rfl
end Verif.Props
