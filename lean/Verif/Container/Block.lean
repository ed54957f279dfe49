import Verif.Container.Reader
import Verif.Props.Decode
/-
`DeserializeAvroContainerBlock` is what `deserializeBlock` says.
-/
namespace Verif.Ocf
open Verif
set_option linter.unusedSimpArgs false
set_option linter.unusedVariables false

/-- The block as a Go value. -/
def RawBlock.val (b : RawBlock) : Val := .record [.long b.count, .bytes b.data, .fixed b.sync]

theorem interp_block {R T : Type} (ro : ReaderOps R) (fo : FieldOps T) :
    interp ro fo blockSchema.env blockSchema.env false 3 blockSchema.root (some blockSchema.root) =
      .noFlag (.seq (.seq (.field fo 0 (.prim (readLong ro) fo.setLong (some .long)))
        (.seq (.field fo 1 (.prim (readBytes ro) fo.setBytes (some .bytes)))
          (.seq (.field fo 2 (fixedSem ro fo 16 true)) .skip))) .skip) := by
  with_unfolding_all rfl

section
variable {R : Type} {ro : ReaderOps R} {lim : Nat} {dv : Field → Val}

/-- A field of a record that is read by itself. -/
theorem field_prim {α : Type} {re : Env} {fs : List Field} {slots : List (Option Val)} {i : Nat} {ty : Ty}
    {rd : R → Except Err (α × R)} {set : Tgt → α → Except Err Tgt} {mk : α → Val}
    (hf : (fs[i]?).map Field.ty = some ty)
    (r : R) (hset : ∀ v a r', rd r = .ok (a, r') →
      ∃ s, set (.new re ty v) a = .ok s ∧ genFinalize s = .ok s ∧ s.val = some (mk a)) :
    Sem.field (genOps re lim dv) i (.prim rd set (some ty')) r (.record fs slots) =
      match rd r with
      | .error e => .err e
      | .ok (a, r') => .done (false, r', .record fs (slots.set i (some (mk a)))) := by
  have hg : genGet re (.record fs slots) i = .ok (.new re ty (slotAt slots i)) := by
    have hi : ¬ ((i : Int) < 0) := by omega
    cases hx : fs[i]? with
    | none => rw [hx] at hf; cases hf
    | some f =>
      rw [hx] at hf
      simp only [Option.map_some, Option.some.injEq] at hf
      simp only [genGet, hi, if_false, Int.toNat_natCast, hx, hf]
  simp only [Sem.field, Sem.sub]
  rw [show (genOps re lim dv).get (.record fs slots) i = _ from hg]
  simp only [Sem.prim, Sem.read, Option.isSome_some, if_true]
  cases hr : rd r with
  | error e => rfl
  | ok x =>
    obtain ⟨a, r'⟩ := x
    obtain ⟨s, h1, h2, h3⟩ := hset (slotAt slots i) a r' hr
    simp only [Sem.act, h1, h2, nullIf, genOps, genPut, Int.toNat_natCast, h3, Bool.false_eq_true, if_false]

theorem fixedSem_prim {T : Type} (fo : FieldOps T) (n : Nat) (ty : Ty) :
    fixedSem ro fo n true = .prim (readFixed ro n) fo.setBytes (some ty) := by
  funext r t
  simp only [fixedSem, doRead_fixed (show (0 : Int) ≤ n by omega), Sem.prim, Sem.read, Option.isSome_some, if_true]
  cases readFixed ro n r with
  | error e => rfl
  | ok x =>
    simp only [mapOk, Sem.act]

/-- A fixed as a field. -/
theorem fixed_set (hR : FullReads ro) {re : Env} {n : Nat} {ty : Ty} (hq : ∀ v, Tgt.new re ty v = .leaf (.fixed n) v)
    {r : R} (v : Option Val) (a : List Byte) (r' : R) (h : readFixed ro n r = .ok (a, r')) :
    ∃ s, genSetBytes (.new re ty v) a = .ok s ∧ genFinalize s = .ok s ∧ s.val = some (.fixed a) := by
  have hl : a.length = n := by simpa using readFixed_length hR h
  refine ⟨_, by rw [hq]; rfl, rfl, ?_⟩
  simp only [Tgt.val, Option.some.injEq, Val.fixed.injEq]
  rw [List.take_of_length_le (by omega), List.drop_of_length_le (by simp; omega), List.append_nil]

/-- The block program, step by step. -/
theorem interp_block_eq (hR : FullReads ro) (r : R) :
    interp ro (genOps blockSchema.env lim dv) blockSchema.env blockSchema.env false 3 blockSchema.root
      (some blockSchema.root) r (.new blockSchema.env blockSchema.root none) =
    match deserializeBlock ro r with
    | .error e => .err e
    | .ok (b, r') => .done (false, r', .record blockFields [some (.long b.count), some (.bytes b.data), some (.fixed b.sync)]) := by
  rw [interp_block, show (16 : Int) = ((16 : Nat) : Int) from rfl, fixedSem_prim _ _ .null]
  have hn : Tgt.new blockSchema.env blockSchema.root none = .record blockFields [none, none, none] := by
    with_unfolding_all rfl
  rw [hn]
  simp only [Sem.noFlag, Sem.seq]
  rw [field_prim (ty := .long) (mk := .long) rfl _ (fun v a _ _ => ⟨_, rfl, rfl, rfl⟩)]
  simp only [deserializeBlock, bindOk]
  cases readLong ro r with
  | error e => rfl
  | ok x =>
    obtain ⟨n, r1⟩ := x
    simp only
    rw [field_prim (ty := .bytes) (mk := .bytes) rfl _ (fun v a _ _ => ⟨_, rfl, rfl, rfl⟩)]
    cases readBytes ro r1 with
    | error e => rfl
    | ok x =>
      obtain ⟨d, r2⟩ := x
      simp only
      have hq : ∀ v, Tgt.new blockSchema.env (.ref qSyncB) v = .leaf (.fixed 16) v := fun v => by with_unfolding_all rfl
      rw [field_prim (re := blockSchema.env) (i := 2) (ty := .ref qSyncB) (rd := readFixed ro ((16 : Nat) : Int))
        (set := (genOps blockSchema.env lim dv).setBytes) (mk := .fixed) rfl r2
        (fun v a r' h => fixed_set hR hq v a r' h)]
      have : readFixed ro ((16 : Nat) : Int) r2 = readFixed ro 16 r2 := rfl
      rw [this]
      cases readFixed ro 16 r2 with
      | error e => rfl
      | ok x => rfl

/-- `DeserializeAvroContainerBlock` on any reader: the compiler accepts the schema, and evaluating
the program gives the block, or the error, of `deserializeBlock`. -/
theorem deserializeBlock_evaluates {σ : Setting R} (hR : FullReads σ.ro) (rd : R) :
    ∃ prog, compile σ.ord false blockSchema blockSchema = .ok prog ∧
    match deserializeBlock σ.ro rd with
    | .error e => Evaluates σ.ro (genOps blockSchema.env σ.lim σ.dv) prog rd
        (.new blockSchema.env blockSchema.root none) (.error e)
    | .ok (b, rd') => ∃ t, Evaluates σ.ro (genOps blockSchema.env σ.lim σ.dv) prog rd
        (.new blockSchema.env blockSchema.root none) (.ok (rd', t)) ∧ t.val = some b.val := by
  have hs := blockSchema_wellFormed
  obtain ⟨prog, hc⟩ := hs.compiles σ.ord
  obtain ⟨main, st, h1, h2⟩ := compile_ok hc
  obtain ⟨hcol, hnn⟩ := hs.suited.toSound.clean h1
  have hrun := run_compiled σ.ro (genOps blockSchema.env σ.lim σ.dv) hs.suited.namesW hs.suited.namesR hs.suited.sizes
    (genOps_defaultsCommute _ _ _) h1 hcol hnn h2 3 rd (.new blockSchema.env blockSchema.root none)
  rw [interp_block_eq hR] at hrun
  refine ⟨prog, hc, ?_⟩
  cases hb : deserializeBlock σ.ro rd with
  | error e => rw [hb] at hrun; exact hrun.2 e rfl
  | ok x =>
    obtain ⟨b, rd'⟩ := x
    rw [hb] at hrun
    exact ⟨_, hrun.1 _ _ _ rfl, rfl⟩
end
end Verif.Ocf
