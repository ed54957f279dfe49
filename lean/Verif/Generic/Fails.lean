import Verif.Generic.Decode
import Verif.Compiler.Ends
set_option linter.unusedSimpArgs false
set_option linter.unusedVariables false
/-
Where the targets of package generic accept what is read, those of generated code do. So
decoding into generic data fails where decoding into generated structs does.
-/
namespace Verif
variable {R : Type}

/-! ### Two targets side by side -/

section
variable {T S : Type} {len : R → Nat} {lim : Nat}

/-- Whatever `b` does successfully on the second target, `a` does on the first. -/
def Along (len : R → Nat) (lim : Nat) (P : T → S → Prop) (a : Sem R T) (b : Sem R S) : Prop :=
  ∀ rd t s, P t s → len rd ≤ lim → ∀ f rd' s', b rd s = .done (f, rd', s') →
    ∃ t', a rd t = .done (f, rd', t') ∧ P t' s'

variable {P : T → S → Prop}

theorem Along.seq {a a' : Sem R T} {b b' : Sem R S} (eb : Eats len 0 b) (h : Along len lim P a b) (h' : Along len lim P a' b') :
    Along len lim P (.seq a a') (.seq b b') := by
  intro rd t s hP hl f rd' s' he
  simp only [Sem.seq] at he ⊢
  cases h1 : b rd s with
  | timeout => rw [h1] at he; cases he
  | err e => rw [h1] at he; cases he
  | done x =>
    obtain ⟨f1, r1, s1⟩ := x
    rw [h1] at he
    simp only at he
    obtain ⟨t1, e1, hP1⟩ := h rd t s hP hl _ _ _ h1
    have := eb _ _ _ _ _ h1
    rw [e1]
    cases h2 : b' r1 s1 with
    | timeout => rw [h2] at he; cases he
    | err e => rw [h2] at he; cases he
    | done y =>
      obtain ⟨f2, r2, s2⟩ := y
      rw [h2] at he
      simp only [Out.done.injEq, Prod.mk.injEq] at he
      obtain ⟨rfl, rfl, rfl⟩ := he
      obtain ⟨t2, e2, hP2⟩ := h' r1 t1 s1 hP1 (by omega) _ _ _ h2
      exact ⟨t2, by simp only [e2], hP2⟩

theorem Along.noFlag {a : Sem R T} {b : Sem R S} (h : Along len lim P a b) : Along len lim P a.noFlag b.noFlag := by
  intro rd t s hP hl f rd' s' he
  simp only [Sem.noFlag] at he ⊢
  cases h1 : b rd s with
  | timeout => rw [h1] at he; cases he
  | err e => rw [h1] at he; cases he
  | done x =>
    obtain ⟨f1, r1, s1⟩ := x
    rw [h1] at he
    simp only [Out.done.injEq, Prod.mk.injEq] at he
    obtain ⟨rfl, rfl, rfl⟩ := he
    obtain ⟨t1, e1, hP1⟩ := h rd t s hP hl _ _ _ h1
    exact ⟨t1, by simp only [e1], hP1⟩

theorem Along.skip : Along len lim P (Sem.skip : Sem R T) Sem.skip := by
  intro rd t s hP hl f rd' s' he
  simp only [Sem.skip, Out.done.injEq, Prod.mk.injEq] at he
  obtain ⟨rfl, rfl, rfl⟩ := he
  exact ⟨t, rfl, hP⟩

theorem Along.fail {a : Sem R T} (e) : Along len lim P a (Sem.fail e) := by
  intro rd t s hP hl f rd' s' he
  cases he

theorem Along.act {g : T → Except Err T} {h : S → Except Err S} (hg : ∀ t s s', P t s → h s = .ok s' → ∃ t', g t = .ok t' ∧ P t' s') :
    Along len lim P (Sem.act g : Sem R T) (Sem.act h) := by
  intro rd t s hP hl f rd' s' he
  simp only [Sem.act] at he ⊢
  cases h1 : h s with
  | error e => rw [h1] at he; cases he
  | ok s1 =>
    rw [h1] at he
    simp only [Out.done.injEq, Prod.mk.injEq] at he
    obtain ⟨rfl, rfl, rfl⟩ := he
    obtain ⟨t', e1, hP1⟩ := hg t s s1 hP h1
    exact ⟨t', by simp only [e1], hP1⟩

theorem Along.read {α : Type} {rdr : R → Except Err (α × R)} {k : α → Sem R T} {k' : α → Sem R S}
    (hr : ∀ r v r', rdr r = .ok (v, r') → len r' ≤ len r) (h : ∀ a, Along len lim P (k a) (k' a)) :
    Along len lim P (.read rdr k) (.read rdr k') := by
  intro rd t s hP hl f rd' s' he
  simp only [Sem.read] at he ⊢
  cases h1 : rdr rd with
  | error e => rw [h1] at he; cases he
  | ok x =>
    obtain ⟨a, r1⟩ := x
    rw [h1] at he
    have := hr _ _ _ h1
    exact h a r1 t s hP (by omega) _ _ _ he

theorem Along.rep {a : Sem R T} {b : Sem R S} (eb : Eats len 0 b) (h : Along len lim P a b) : ∀ n,
    Along len lim P (.rep a n) (.rep b n)
  | 0 => .skip
  | n + 1 => .seq (eats_noFlag eb) h.noFlag (Along.rep eb h n)

/-- The blocks, where the hint of the second target implies that of the first if the entries
that it announces are there. -/
theorem Along.blocks {ro : ReaderOps R} {fo : FieldOps T} {fo' : FieldOps S} (hs : Shrinks ro len) {a : Sem R T} {b : Sem R S}
    (eb : Eats len 0 b) (h : Along len lim P a b)
    (hint : ∀ rd t s c s1 x, P t s → len rd ≤ lim → fo'.hintSize s c = .ok s1 → Sem.rep b c.toNat rd s1 = .done x →
      ∃ t1, fo.hintSize t c = .ok t1 ∧ P t1 s1) :
    ∀ n, Along len lim P (.blocks ro fo a n) (.blocks ro fo' b n) := by
  intro n
  induction n with
  | zero => intro rd t s hP hl f rd' s' he; simp [Sem.blocks] at he
  | succ n ih =>
    have key : ∀ c : BitVec 64, Along len lim P
        (.seq (.act fun t => fo.hintSize t c) (.seq (.rep a c.toNat) (Sem.blocks ro fo a n)))
        (.seq (.act fun t => fo'.hintSize t c) (.seq (.rep b c.toNat) (Sem.blocks ro fo' b n))) := by
      intro c rd t s hP hl f rd' s' he
      have he0 := he
      simp only [Sem.seq, Sem.act] at he
      cases h1 : fo'.hintSize s c with
      | error e => rw [h1] at he; cases he
      | ok s1 =>
        rw [h1] at he
        simp only at he
        cases h2 : Sem.rep b c.toNat rd s1 with
        | timeout => rw [h2] at he; cases he
        | err e => rw [h2] at he; cases he
        | done x =>
          obtain ⟨t1, h3, hP1⟩ := hint rd t s c s1 x hP hl h1 h2
          have h4 := Along.seq (eats_rep eb c.toNat).weak (Along.rep eb h c.toNat) ih
          have h5 : Sem.seq (.rep b c.toNat) (Sem.blocks ro fo' b n) rd s1 = .done (f, rd', s') := by
            simp only [Sem.seq, h2] at he ⊢
            obtain ⟨f1, r1, s2⟩ := x
            simp only at he ⊢
            cases h6 : Sem.blocks ro fo' b n r1 s2 with
            | timeout => rw [h6] at he; cases he
            | err e => rw [h6] at he; cases he
            | done y =>
              rw [h6] at he
              simpa using he
          obtain ⟨t2, h6, hP2⟩ := h4 rd t1 s1 hP1 hl _ _ _ h5
          refine ⟨t2, ?_, hP2⟩
          rw [Sem.seq]
          simp only [Sem.act, h3, h6, Bool.false_or]
    unfold Sem.blocks
    refine .read hs.long_le fun c => ?_
    by_cases hc : c = 0
    · simp only [hc, if_true]; exact .skip
    · simp only [hc, if_false]
      by_cases hp : 0 < c.toInt
      · simp only [hp, if_true]; exact key c
      · simp only [hp, if_false]; exact .read hs.long_le fun _ => key (-c)
end

/-! ### Skipped data -/

section
variable {T S : Type} {len : R → Nat} {lim : Nat} {ro : ReaderOps R} (hs : Shrinks ro len) (fo : FieldOps T) (fo' : FieldOps S)
  {P : T → S → Prop} (hP : ∀ t s c s', P t s → fo'.hintSize s c ≠ .ok s') (we re : Env)
include hs hP

theorem along_skip : ∀ n w, Along len lim P (interp ro fo we re false n w none) (interp ro fo' we re false n w none) := by
  intro n
  induction n with
  | zero => intro w rd t s _ _ f rd' s' he; simp [interp] at he
  | succ n ih =>
    intro w
    have unf : ∀ {T : Type} (fo : FieldOps T), interp ro fo we re false (n + 1) w none =
        bodySem ro fo we re false n (interp ro fo we re false n) w none := by
      intro T fo
      cases w <;> rfl
    rw [unf, unf]
    have hE := eats_interp hs fo' we re false n
    have hint : ∀ (b : Sem R S) rd t s c s1 x, P t s → len rd ≤ lim → fo'.hintSize s c = .ok s1 → Sem.rep b c.toNat rd s1 = .done x →
      ∃ t1, fo.hintSize t c = .ok t1 ∧ P t1 s1 := fun b rd t s c s1 x h _ h1 _ => absurd h1 (hP t s c s1 h)
    have prim : ∀ {α : Type} (rdr : R → Except Err (α × R)) (set : T → α → Except Err T) (set' : S → α → Except Err S),
        (∀ r v r', rdr r = .ok (v, r') → len r' ≤ len r) → Along len lim P (Sem.prim rdr set none) (Sem.prim rdr set' none) :=
      fun rdr set set' h => .read h fun a => .skip
    have hstr : ∀ r v r', readString ro r = .ok (v, r') → len r' ≤ len r := fun r v r' h => by have := hs.string r v r' h; omega
    cases w <;> simp only [bodySem]
    case null => exact .skip
    case bool => exact prim _ _ _ hs.bool
    case int => exact prim _ _ _ hs.int
    case long => exact prim _ _ _ hs.long_le
    case float => exact prim _ _ _ hs.float
    case double => exact prim _ _ _ hs.double
    case bytes => exact prim _ _ _ hs.bytes
    case string => exact prim _ _ _ hstr
    case array wi => exact .blocks hs (hE _ _) (ih wi) (hint _) n
    case map wi =>
      exact .blocks hs (eats_read (i := 1) (j := 0) hs.string fun _ => hE _ _).weak (.read hstr fun _ => ih wi) (hint _) n
    case union ts =>
      refine .read hs.long_le fun v => ?_
      unfold Sem.pick
      split
      · exact .fail _
      · exact ih _
    case ref q =>
      unfold refSem
      split
      · exact .fail _
      · rename_i wd hd
        simp only [defSem, Option.map_none]
        cases wd.kind with
        | record wfs =>
          refine .noFlag (.seq (eats_fields hs fo' we re hE _ _) ?_ .skip)
          induction wfs with
          | nil => exact .skip
          | cons f fs ihf => exact .seq (hE _ _) (ih f.ty) ihf
        | enum ss d => exact .read hs.long_le fun v => .skip
        | fixed k =>
          intro rd t s hPt hl f rd' s' he
          simp only [fixedSem] at he ⊢
          cases h1 : doRead ro (11 + k) {} rd with
          | error e => rw [h1] at he; cases he
          | ok x =>
            obtain ⟨fr, r1⟩ := x
            rw [h1] at he
            simp only [Bool.false_eq_true, if_false, Out.done.injEq, Prod.mk.injEq] at he ⊢
            obtain ⟨rfl, rfl, rfl⟩ := he
            exact ⟨t, ⟨rfl, rfl, rfl⟩, hPt⟩
end

/-! ### Targets of the two kinds -/

section
variable {len : R → Nat} {lim : Nat} {dv : Field → Val} {re we : Env} {ro : ReaderOps R}

local notation "gops" => genOps re lim dv
local notation "gfo" => gOps re lim

/-- Whatever `b` does successfully on a new generic datum of type `r`, `a` does on a new value
of generated code. -/
def Sims (len : R → Nat) (lim : Nat) (re : Env) (r : Ty) (a : Sem R Tgt) (b : Sem R GTgt) : Prop :=
  ∀ rd v0, len rd ≤ lim → ∀ f rd' g', b rd (.new re r) = .done (f, rd', g') →
    ∃ t', a rd (.new re r v0) = .done (f, rd', t') ∧ (f = true → r.nullable = true)

theorem Sims.read {α : Type} {r : Ty} {rdr : R → Except Err (α × R)} {k : α → Sem R Tgt} {k' : α → Sem R GTgt}
    (hr : ∀ r v r', rdr r = .ok (v, r') → len r' ≤ len r) (h : ∀ a, Sims len lim re r (k a) (k' a)) :
    Sims len lim re r (.read rdr k) (.read rdr k') := by
  intro rd v0 hl f rd' g' he
  simp only [Sem.read] at he ⊢
  cases h1 : rdr rd with
  | error e => rw [h1] at he; cases he
  | ok x =>
    obtain ⟨a, r1⟩ := x
    rw [h1] at he
    have := hr _ _ _ h1
    exact h a r1 v0 (by omega) _ _ _ he

theorem Sims.fail {r : Ty} {a : Sem R Tgt} (e) : Sims len lim re r a (Sem.fail e) := by
  intro rd v0 hl f rd' g' he
  cases he

/-- A sub-target. -/
theorem along_sub {r : Ty} {a : Sem R Tgt} {b : Sem R GTgt} (h : Sims len lim re r a b) {P : Tgt → GTgt → Prop}
    {get : Tgt → Except Err Tgt} {get' : GTgt → Except Err GTgt} {put : Tgt → Tgt → Tgt} {put' : GTgt → GTgt → GTgt} {k : Int}
    (hget : ∀ t s s1, P t s → get' s = .ok s1 → s1 = .new re r ∧ ∃ v0, get t = .ok (.new re r v0))
    (hput : ∀ t s x y, P t s → P (put t x) (put' s y))
    (hnull : ∀ t s x y s2, P t s → r.nullable = true → (gfo).nullField (put' s y) k = .ok s2 →
      ∃ t2, (gops).nullField (put t x) k = .ok t2 ∧ P t2 s2) :
    Along len lim P (.sub gops get put k a) (.sub gfo get' put' k b) := by
  intro rd t s hP hl f rd' s' he
  simp only [Sem.sub] at he ⊢
  cases h1 : get' s with
  | error e => rw [h1] at he; cases he
  | ok s1 =>
    rw [h1] at he
    obtain ⟨rfl, v0, h2⟩ := hget t s s1 hP h1
    simp only [h2] at he ⊢
    cases h3 : b rd (.new re r) with
    | timeout => rw [h3] at he; cases he
    | err e => rw [h3] at he; cases he
    | done x =>
      obtain ⟨f1, r1, s2⟩ := x
      rw [h3] at he
      obtain ⟨t2, h4, hn⟩ := h rd v0 hl _ _ _ h3
      have hfin : ∃ t3, (gops).finalize t2 = .ok t3 := by
        cases t2 <;> exact ⟨_, rfl⟩
      obtain ⟨t3, h5⟩ := hfin
      have h6 : (gfo).finalize s2 = .ok s2 := rfl
      simp only [h4, h5, h6] at he ⊢
      cases f1 with
      | false =>
        simp only [nullIf, Bool.false_eq_true, if_false, Out.done.injEq, Prod.mk.injEq] at he ⊢
        obtain ⟨rfl, rfl, rfl⟩ := he
        exact ⟨_, ⟨rfl, rfl, rfl⟩, hput t s t3 s2 hP⟩
      | true =>
        simp only [nullIf, if_true] at he ⊢
        cases h7 : (gfo).nullField (put' s s2) k with
        | error e => rw [h7] at he; cases he
        | ok s3 =>
          rw [h7] at he
          simp only [Out.done.injEq, Prod.mk.injEq] at he
          obtain ⟨rfl, rfl, rfl⟩ := he
          obtain ⟨t4, h8, hP4⟩ := hnull t s t3 s2 s3 hP (hn rfl) h7
          exact ⟨t4, by simp only [h8], hP4⟩

/-- Arrays of the same item type, both empty or both not. -/
def PArray (ri : Ty) (t : Tgt) (g : GTgt) : Prop :=
  ∃ items gitems, t = .array ri items ∧ g = .array ri gitems ∧ (items = [] → gitems = [])

def PMap (ri : Ty) (t : Tgt) (g : GTgt) : Prop :=
  ∃ h pend cur gitems, t = .map ri h pend cur ∧ g = .map ri gitems

def PRecord (rfs : List Field) (t : Tgt) (g : GTgt) : Prop :=
  ∃ slots gslots, t = .record rfs slots ∧ g = .record rfs gslots

def PUnion (rs : List Ty) (t : Tgt) (g : GTgt) : Prop :=
  ∃ tag sel slots o, t = .union rs tag sel slots ∧ g = .union rs o

theorem along_item {ri : Ty} {a : Sem R Tgt} {b : Sem R GTgt} (h : Sims len lim re ri a b) :
    Along len lim (PArray ri) (itemSem gops a) (itemSem gfo b) := by
  refine along_sub h ?_ ?_ ?_
  · rintro t s s1 ⟨items, gitems, rfl, rfl, _⟩ h1
    simp only [gOps, gAppendArray, Except.ok.injEq] at h1
    exact ⟨h1.symm, none, rfl⟩
  · rintro t s x y ⟨items, gitems, rfl, rfl, _⟩
    exact ⟨_, _, rfl, rfl, fun h => by simp at h⟩
  · rintro t s x y s2 ⟨items, gitems, rfl, rfl, _⟩ hn h1
    have h1' : s2 = .array ri (gitems ++ [y.datum]) := by
      simp only [gOps, gPutArray, gNullField, Except.ok.injEq] at h1
      exact h1.symm
    refine ⟨.array ri (items ++ [some .nil]), ?_, _, _, rfl, h1', fun h => by simp at h⟩
    simp [genOps, genPutArray, genNullField, hn]

theorem along_entry (hs : Shrinks ro len) {ri : Ty} {a : Sem R Tgt} {b : Sem R GTgt} (h : Sims len lim re ri a b) :
    Along len lim (PMap ri) (entrySem ro gops a) (entrySem ro gfo b) := by
  refine .read (fun r v r' h => by have := hs.string r v r' h; omega) fun k => along_sub h ?_ ?_ ?_
  · rintro t s s1 ⟨h, pend, cur, gitems, rfl, rfl⟩ h1
    simp only [gOps, gAppendMap, Except.ok.injEq] at h1
    exact ⟨h1.symm, none, rfl⟩
  · rintro t s x y ⟨h, pend, cur, gitems, rfl, rfl⟩
    exact ⟨_, _, _, _, rfl, rfl⟩
  · rintro t s x y s2 ⟨h, pend, cur, gitems, rfl, rfl⟩ hn h1
    have h1' : s2 = .map ri (mapInsert k y.datum gitems) := by
      simp only [gOps, gPutMap, gNullField, Except.ok.injEq] at h1
      exact h1.symm
    refine ⟨.map ri true (pend ++ [(k, some .nil)]) cur, ?_, _, _, _, _, rfl, h1'⟩
    simp [genOps, genPutMap, genNullField, hn]

theorem along_field {rfs : List Field} {i : Nat} {rf : Field} (hi : rfs[i]? = some rf) {a : Sem R Tgt} {b : Sem R GTgt}
    (h : Sims len lim re rf.ty a b) : Along len lim (PRecord rfs) (.field gops i a) (.field gfo i b) := by
  have h0 : ¬ ((i : Int) < 0) := by omega
  refine along_sub h ?_ ?_ ?_
  · rintro t s s1 ⟨slots, gslots, rfl, rfl⟩ h1
    simp only [gOps, gGet, h0, if_false, Int.toNat_natCast, hi, Except.ok.injEq] at h1
    refine ⟨h1.symm, slotAt slots i, ?_⟩
    simp only [genOps, genGet, h0, if_false, Int.toNat_natCast, hi]
  · rintro t s x y ⟨slots, gslots, rfl, rfl⟩
    exact ⟨_, _, rfl, rfl⟩
  · rintro t s x y s2 ⟨slots, gslots, rfl, rfl⟩ hn h1
    simp only [gOps, gPut, gNullField] at h1
    split at h1
    · cases h1
    · simp only [Except.ok.injEq] at h1
      refine ⟨.record rfs (((slots.set i x.val)).set i (some .nil)), ?_, _, _, rfl, h1.symm⟩
      simp only [genOps, genPut, genNullField, h0, if_false, Int.toNat_natCast, hi, hn, if_true]

theorem along_member {rs : List Ty} {j : Nat} {r' : Ty} (hj : rs[j]? = some r') {a : Sem R Tgt} {b : Sem R GTgt}
    (h : Sims len lim re r' a b) : Along len lim (PUnion rs) (.member gops j a) (.member gfo j b) := by
  have h0 : ¬ ((j : Int) < 0) := by omega
  refine .seq (eats_act _) (.act ?_) (along_sub h ?_ ?_ ?_)
  · rintro t s s' ⟨tag, sel, slots, o, rfl, rfl⟩ h1
    simp only [gOps, gSetLong, Except.ok.injEq] at h1
    exact ⟨_, rfl, _, _, _, _, rfl, h1.symm⟩
  · rintro t s s1 ⟨tag, sel, slots, o, rfl, rfl⟩ h1
    simp only [gOps, gGet, h0, if_false, Int.toNat_natCast, hj, Except.ok.injEq] at h1
    refine ⟨h1.symm, slotAt slots j, ?_⟩
    simp only [genOps, genGet, h0, if_false, Int.toNat_natCast, hj]
  · rintro t s x y ⟨tag, sel, slots, o, rfl, rfl⟩
    exact ⟨_, _, _, _, rfl, rfl⟩
  · rintro t s x y s2 ⟨tag, sel, slots, o, rfl, rfl⟩ hn h1
    simp only [gOps, gPut, gNullField] at h1
    cases h1

/-- A piece that keeps two targets alike, and does not ask for them to be nulled. -/
theorem Along.sims {r : Ty} {P : Tgt → GTgt → Prop} {a : Sem R Tgt} {b : Sem R GTgt} (h : Along len lim P a b)
    (hP : ∀ v0, P (.new re r v0) (.new re r)) (hf : ∀ rd s f rd' s', b rd s = .done (f, rd', s') → f = false) :
    Sims len lim re r a b := by
  intro rd v0 hl f rd' g' he
  obtain ⟨t', h1, h2⟩ := h rd _ _ (hP v0) hl _ _ _ he
  exact ⟨t', h1, fun hf' => by rw [hf _ _ _ _ _ he] at hf'; cases hf'⟩

theorem sub_flag {T : Type} {fo : FieldOps T} {get : T → Except Err T} {put : T → T → T} {k : Int} {a : Sem R T} {rd t f rd' t'}
    (h : Sem.sub fo get put k a rd t = .done (f, rd', t')) : f = false := by
  simp only [Sem.sub] at h
  split at h
  · cases h
  · split at h
    · cases h
    · cases h
    · split at h
      · cases h
      · split at h
        · cases h
        · cases h; rfl

theorem member_flag {T : Type} {fo : FieldOps T} {j : Nat} {a : Sem R T} {rd t f rd' t'}
    (h : Sem.member fo j a rd t = .done (f, rd', t')) : f = false := by
  simp only [Sem.member, Sem.seq, Sem.act] at h
  cases h1 : fo.setLong t (BitVec.ofInt 64 j) with
  | error e => rw [h1] at h; cases h
  | ok t1 =>
    rw [h1] at h
    simp only at h
    cases h2 : Sem.field fo j a rd t1 with
    | timeout => rw [h2] at h; cases h
    | err e => rw [h2] at h; cases h
    | done x =>
      obtain ⟨f1, r1, t2⟩ := x
      rw [h2] at h
      cases h
      rw [sub_flag (show Sem.sub fo _ _ _ a rd t1 = _ from h2)]
      rfl

theorem blocks_flag {T : Type} {fo : FieldOps T} {a : Sem R T} : ∀ {n rd t f rd' t'},
    Sem.blocks ro fo a n rd t = .done (f, rd', t') → f = false := by
  have rep : ∀ n rd t f rd' t', Sem.rep a n rd t = .done (f, rd', t') → f = false := by
    intro n
    induction n with
    | zero => intro rd t f rd' t' h; cases h; rfl
    | succ n ih =>
      intro rd t f rd' t' h
      simp only [Sem.rep, Sem.seq, Sem.noFlag] at h
      cases h1 : a rd t with
      | timeout => rw [h1] at h; cases h
      | err e => rw [h1] at h; cases h
      | done x =>
        rw [h1] at h
        simp only at h
        split at h
        · cases h
        · cases h
        · rename_i h2
          cases h
          rw [ih _ _ _ _ _ h2]; rfl
  intro n
  induction n with
  | zero => intro rd t f rd' t' h; simp [Sem.blocks] at h
  | succ n ih =>
    have key : ∀ (c : BitVec 64) rd t f rd' t', Sem.seq (.act fun t => fo.hintSize t c) (.seq (.rep a c.toNat) (Sem.blocks ro fo a n)) rd t =
        .done (f, rd', t') → f = false := by
      intro c rd t f rd' t' h
      simp only [Sem.seq, Sem.act] at h
      cases h1 : fo.hintSize t c with
      | error e => rw [h1] at h; cases h
      | ok t1 =>
        rw [h1] at h
        simp only at h
        cases h2 : Sem.rep a c.toNat rd t1 with
        | timeout => rw [h2] at h; cases h
        | err e => rw [h2] at h; cases h
        | done x =>
          obtain ⟨f1, r1, t2⟩ := x
          rw [h2] at h
          simp only at h
          cases h3 : Sem.blocks ro fo a n r1 t2 with
          | timeout => rw [h3] at h; cases h
          | err e => rw [h3] at h; cases h
          | done y =>
            obtain ⟨f2, r2, t3⟩ := y
            rw [h3] at h
            cases h
            rw [rep _ _ _ _ _ _ h2, ih h3]; rfl
    intro rd t f rd' t' h
    unfold Sem.blocks at h
    simp only [Sem.read] at h
    cases h1 : readLong ro rd with
    | error e => rw [h1] at h; cases h
    | ok x =>
      obtain ⟨c, r1⟩ := x
      rw [h1] at h
      simp only at h
      by_cases hc : c = 0
      · simp only [hc, if_true, Sem.skip] at h; cases h; rfl
      · simp only [hc, if_false] at h
        by_cases hp : 0 < c.toInt
        · simp only [hp, if_true] at h; exact key _ _ _ _ _ _ h
        · simp only [hp, if_false, Sem.read] at h
          cases h2 : readLong ro r1 with
          | error e => rw [h2] at h; cases h
          | ok y => rw [h2] at h; exact key _ _ _ _ _ _ h

theorem noFlag_flag {T : Type} {a : Sem R T} {rd t f rd' t'} (h : a.noFlag rd t = .done (f, rd', t')) : f = false := by
  simp only [Sem.noFlag] at h
  split at h
  · cases h
  · cases h
  · cases h; rfl

theorem sims_array (hs : Shrinks ro len) {ri : Ty} {a : Sem R Tgt} {b : Sem R GTgt} (eb : Eats len 0 b)
    (h : Sims len lim re ri a b) (n : Nat) :
    Sims len lim re (.array ri) (.blocks ro gops (itemSem gops a) n) (.blocks ro gfo (itemSem gfo b) n) := by
  refine Along.sims (P := PArray ri) (.blocks hs (eats_sub _ _ _ _ eb) (along_item h) ?_ n) ?_ fun _ _ _ _ _ => blocks_flag
  · rintro rd t s c s1 x ⟨items, gitems, rfl, rfl, he⟩ hl h1 h2
    simp only [gOps, gHintSize] at h1
    split at h1
    · cases h1
    · rename_i hc
      simp only [Except.ok.injEq] at h1
      refine ⟨.array ri items, ?_, _, _, rfl, h1.symm, he⟩
      simp only [genOps, genHintSize]
      rw [if_neg fun hh => hc ⟨he hh.1, hh.2⟩]
  · intro v0
    exact ⟨_, _, rfl, rfl, fun _ => rfl⟩

theorem sims_map (hlim : lim < 2 ^ 63) (hs : Shrinks ro len) {ri : Ty} {a : Sem R Tgt} {b : Sem R GTgt} (eb : Eats len 0 b)
    (h : Sims len lim re ri a b) (n : Nat) :
    Sims len lim re (.map ri) (.blocks ro gops (entrySem ro gops a) n) (.blocks ro gfo (entrySem ro gfo b) n) := by
  refine Along.sims (P := PMap ri) (.blocks hs (eats_entry hs gfo eb).weak (along_entry hs h) ?_ n) ?_ fun _ _ _ _ _ => blocks_flag
  · rintro rd t s c s1 x ⟨hh, pend, cur, gitems, rfl, rfl⟩ hl h1 h2
    simp only [gOps, gHintSize, Except.ok.injEq] at h1
    have := eats_rep (eats_entry hs gfo eb) c.toNat _ _ _ _ _ h2
    have hc : c.toInt = c.toNat := by
      rw [BitVec.toInt_eq_toNat_cond]
      rw [if_pos (by omega)]
    refine ⟨.map ri true pend cur, ?_, _, _, _, _, rfl, h1.symm⟩
    simp only [genOps, genHintSize]
    rw [if_neg (by rw [hc]; omega)]
  · intro v0
    exact ⟨_, _, _, _, rfl, rfl⟩

/-! ### Primitives -/

theorem sims_prim {α : Type} {r : Ty} {rdr : R → Except Err (α × R)} {set : Tgt → α → Except Err Tgt} {set' : GTgt → α → Except Err GTgt}
    (h : ∀ a v0 g', set' (.new re r) a = .ok g' → ∃ t', set (.new re r v0) a = .ok t') :
    Sims len lim re r (.prim rdr set (some r)) (.prim rdr set' (some r)) := by
  intro rd v0 hl f rd' g' he
  simp only [Sem.prim, Sem.read, Sem.act, Option.isSome, if_true] at he ⊢
  cases h1 : rdr rd with
  | error e => rw [h1] at he; cases he
  | ok x =>
    obtain ⟨a, r1⟩ := x
    rw [h1] at he
    simp only at he ⊢
    cases h2 : set' (.new re r) a with
    | error e => rw [h2] at he; cases he
    | ok g1 =>
      rw [h2] at he
      simp only [Out.done.injEq, Prod.mk.injEq] at he
      obtain ⟨rfl, rfl, rfl⟩ := he
      obtain ⟨t', h3⟩ := h a v0 g1 h2
      exact ⟨t', by simp only [h3], by simp⟩

/-- The types a primitive of the writer can be read as, when the types belong together. -/
theorem comp_prim (hp : PlainNames re) {w r : Ty}
    (hw : w = .bool ∨ w = .int ∨ w = .long ∨ w = .float ∨ w = .double ∨ w = .bytes ∨ w = .string)
    (hu : r.isUnion = false) (hc : Comp we re w r) :
    (r = .bool ∧ w = .bool) ∨ (r = .int ∧ w = .int) ∨ (r = .long ∧ (w = .int ∨ w = .long)) ∨
    (r = .float ∧ (w = .int ∨ w = .long ∨ w = .float)) ∨ (r = .double ∧ (w = .int ∨ w = .long ∨ w = .float ∨ w = .double)) ∨
    ((r = .bytes ∨ r = .string) ∧ (w = .bytes ∨ w = .string)) ∨ GTgt.new re r = .bad ∨ ∃ fs ss, GTgt.new re r = .record fs ss := by
  have hwu : w.isUnion = false := by rcases hw with rfl | rfl | rfl | rfl | rfl | rfl | rfl <;> rfl
  cases r with
  | ref q =>
    simp only [GTgt.new]
    cases hf : re.find q with
    | none => simp
    | some d =>
      cases hd : d.kind with
      | record fs => simp [hd]
      | enum ss dd => exact absurd hc (not_comp_ref hp hf (by simp [hd]) hw)
      | fixed n => exact absurd hc (not_comp_ref hp hf (by simp [hd]) hw)
  | union ts => simp [Ty.isUnion] at hu
  | _ =>
    rcases hc with h | h | ⟨_, _, _, h, _⟩ | h | h
    · rcases hw with rfl | rfl | rfl | rfl | rfl | rfl | rfl <;>
        simp [Ty.readableBy, anyBranch, Ty.readsBool, Ty.readsInt, Ty.readsLong, Ty.readsFloat, Ty.readsDouble, Ty.readsString] at h ⊢
    · rcases hw with rfl | rfl | rfl | rfl | rfl | rfl | rfl <;> simp [Ty.goName] at h ⊢
    · cases h
    · rw [hwu] at h; cases h
    · simp [Ty.isUnion] at h

/-! ### Enums and fixeds -/

theorem sims_enum (hs : Shrinks ro len) {q' : QName} {rdf : Def} (hf : re.find q' = some rdf) {ss : List Str} {d : Str} (hk : rdf.kind = .enum ss d)
    (ws : List Str) : Sims len lim re (.ref q') (enumSem ro gops ws (some (ss, d))) (enumSem ro gfo ws (some (ss, d))) := by
  have hn : ∀ v0, Tgt.new re (.ref q') v0 = .leaf .enum v0 := fun v0 => by simp only [Tgt.new, hf, hk]
  have hact : ∀ (k : Nat), Sims (R := R) len lim re (.ref q') (.act fun t => (gops).setInt t (BitVec.ofInt 32 k))
      (.act fun t => (gfo).setInt t (BitVec.ofInt 32 k)) := by
    intro k rd v0 hl f rd' g' he
    simp only [Sem.act] at he ⊢
    split at he
    · cases he
    · simp only [Out.done.injEq, Prod.mk.injEq] at he
      obtain ⟨rfl, rfl, rfl⟩ := he
      rw [hn]
      exact ⟨_, rfl, by simp⟩
  have hsym : ∀ s, Sims (R := R) len lim re (.ref q') (symbolSem gops ss d s) (symbolSem gfo ss d s) := by
    intro s
    unfold symbolSem
    cases symbolIndex ss s with
    | some k => exact hact k
    | none =>
      simp only
      split
      · cases symbolIndex ss d with
        | none => exact .fail _
        | some k => exact hact k
      · exact .fail _
  have hpick : ∀ o, Sims (R := R) len lim re (.ref q') (.pick o .unexpectedEnum (symbolSem gops ss d))
      (.pick o .unexpectedEnum (symbolSem gfo ss d)) := by
    intro o
    cases o with
    | none => exact .fail _
    | some s => exact hsym s
  exact .read hs.long_le fun v => hpick _

theorem sims_fixed {q' : QName} {rdf : Def} (hf : re.find q' = some rdf) {k : Int} (hk : rdf.kind = .fixed k) (n : Int) :
    Sims len lim re (.ref q') (fixedSem ro gops n true) (fixedSem ro gfo n true) := by
  have hn : ∀ v0, Tgt.new re (.ref q') v0 = .leaf (.fixed k.toNat) v0 := fun v0 => by simp only [Tgt.new, hf, hk]
  intro rd v0 hl f rd' g' he
  simp only [fixedSem] at he ⊢
  cases h1 : doRead ro (11 + n) {} rd with
  | error e => rw [h1] at he; cases he
  | ok x =>
    obtain ⟨fr, r1⟩ := x
    rw [h1] at he
    simp only [if_true] at he ⊢
    split at he
    · cases he
    · simp only [Out.done.injEq, Prod.mk.injEq] at he
      obtain ⟨rfl, rfl, rfl⟩ := he
      rw [hn]
      exact ⟨_, rfl, by simp⟩

/-! ### Records -/

theorem along_defaults {rfs : List Field} : ∀ {l : List (Nat × Field)}, (∀ x ∈ l, rfs[x.1]? = some x.2 ∧ x.2.dflt ≠ none) →
    Along len lim (PRecord rfs) (defaultsSem gops l : Sem R Tgt) (defaultsSem gfo l)
  | [], _ => .skip
  | (i, f) :: l, h => by
    obtain ⟨h1, h2⟩ := h (i, f) (by simp)
    have h0 : ¬ ((i : Int) < 0) := by omega
    refine .seq (eats_act _) (.act ?_) (along_defaults fun x hx => h x (by simp [hx]))
    rintro t s s' ⟨slots, gslots, rfl, rfl⟩ he
    simp only [gOps, gSetDefault, h0, if_false, Int.toNat_natCast, h1, Except.ok.injEq] at he
    refine ⟨.record rfs (slots.set i (some (dv f))), ?_, _, _, rfl, he.symm⟩
    have h3 : f.dflt.isNone = false := by cases hd : f.dflt <;> simp_all
    simp [genOps, genSetDefault, h0, h1, h3]

/-- The simulation, for a bound on the depth. -/
def SimOK (ro : ReaderOps R) (len : R → Nat) (lim : Nat) (dv : Field → Val) (we re : Env) (n : Nat) : Prop :=
  ∀ w r, w.tidy = true → r.tidy = true → Comp we re w r → ¬ Refused false we re w (some r) →
    Sims len lim re r (interp ro (genOps re lim dv) we re false n w (some r)) (interp ro (gOps re lim) we re false n w (some r))

theorem along_fields (hs : Shrinks ro len) {n : Nat} (ih : SimOK ro len lim dv we re n) {rfs : List Field}
    (htr : ∀ f ∈ rfs, f.ty.tidy = true) : ∀ {wfs : List Field}, (∀ f ∈ wfs, f.ty.tidy = true) →
    (∀ wf ∈ wfs, ∀ i rf, fieldByName rfs wf.name = some (i, rf) → ¬ Refused false we re wf.ty (some rf.ty)) →
    Along len lim (PRecord rfs) (fieldsSem gops we re (interp ro gops we re false n) (some rfs) wfs)
      (fieldsSem gfo we re (interp ro gfo we re false n) (some rfs) wfs)
  | [], _, _ => .skip
  | wf :: wfs, htw, hnr => by
    have ihf := along_fields hs ih htr (wfs := wfs) (fun f hf => htw f (by simp [hf])) (fun f hf => hnr f (by simp [hf]))
    have hE := eats_interp hs gfo we re false n
    simp only [fieldsSem, Option.bind]
    cases hf : fieldByName rfs wf.name with
    | none =>
      refine .seq (hE _ _) (along_skip hs gops gfo ?_ we re n wf.ty) ihf
      rintro t s c s' ⟨slots, gslots, rfl, rfl⟩ h
      simp only [gOps, gHintSize] at h
      cases h
    | some x =>
      obtain ⟨i, rf⟩ := x
      simp only
      split
      · rename_i hr
        have hi := (fieldByName_some hf).1
        exact .seq (eats_sub _ _ _ _ (hE _ _)) (along_field hi (ih _ _ (htw wf (by simp)) (htr rf (List.mem_of_getElem? hi))
          (.inl hr) (hnr wf (by simp) i rf hf))) ihf
      · exact .fail _

theorem sims_ref (hs : Shrinks ro len) (hF : Fair we re) {n : Nat} (ih : SimOK ro len lim dv we re n) {q q' : QName}
    (hnr : ¬ Refused false we re (.ref q) (some (.ref q'))) :
    Sims len lim re (.ref q') (refSem ro gops we re false (interp ro gops we re false n) q (some q'))
      (refSem ro gfo we re false (interp ro gfo we re false n) q (some q')) := by
  unfold refSem
  cases hw : we.find q with
  | none => exact .fail _
  | some wd =>
    simp only
    cases hr : re.find q' with
    | none => exact .fail _
    | some rdf =>
      simp only
      split
      · unfold defSem
        cases hk : wd.kind with
        | record wfs =>
          cases hk' : rdf.kind with
          | record rfs =>
            simp only [hk', Option.map_some]
            have hrec : Records we re q q' wfs rfs := ⟨⟨wd, hw, hk⟩, ⟨rdf, hr, hk'⟩⟩
            refine Along.sims (P := PRecord rfs) (.noFlag (.seq (eats_fields hs gfo we re (eats_interp hs gfo we re false n) _ _)
              (along_fields hs ih (fun f hf => hF.tidyR _ _ _ f hr hk' hf) (fun f hf => hF.tidyW _ _ _ f hw hk hf) ?_) (along_defaults ?_))) ?_ fun _ _ _ _ _ => noFlag_flag
            · intro wf hwf i rf hi hR
              exact hnr (.field hrec hwf (fieldByName_answers.1 hi) hR)
            · rintro ⟨j, rf⟩ hx
              rw [mem_missing (hF.fields _ _ _ hr hk')] at hx
              exact ⟨hx.1, fun hd => hnr (.noDefault hrec hx.1
                (fun wf hwf ha => hx.2 wf hwf rf (fieldByName_answers.2 ha)) hd)⟩
            · intro v0
              simp only [Tgt.new, GTgt.new, hr, hk']
              exact ⟨_, _, rfl, rfl⟩
          | enum ss d => simp only [hk', Option.map_some]; exact .fail _
          | fixed k => simp only [hk', Option.map_some]; exact .fail _
        | enum ws wd' =>
          cases hk' : rdf.kind with
          | enum ss d => simp only [hk', Option.map_some]; exact sims_enum hs hr hk' ws
          | record rfs => simp only [hk', Option.map_some]; exact .fail _
          | fixed k => simp only [hk', Option.map_some]; exact .fail _
        | fixed k =>
          cases hk' : rdf.kind with
          | fixed k' => simp only [hk', Option.map_some]; exact sims_fixed hr hk' k
          | record rfs => simp only [hk', Option.map_some]; exact .fail _
          | enum ss d => simp only [hk', Option.map_some]; exact .fail _
      · exact .fail _

/-! ### The whole -/

theorem sims_body (hlim : lim < 2 ^ 63) (hs : Shrinks ro len) (hF : Fair we re) {n : Nat} (ih : SimOK ro len lim dv we re n)
    {w r : Ty} (hw : w.tidy = true) (hr : r.tidy = true) (hwu : w.isUnion = false) (hru : r.isUnion = false)
    (hc : Comp we re w r) (hnr : ¬ Refused false we re w (some r)) :
    Sims len lim re r (bodySem ro gops we re false n (interp ro gops we re false n) w (some r))
      (bodySem ro gfo we re false n (interp ro gfo we re false n) w (some r)) := by
  have hE := eats_interp hs gfo we re false n
  cases w with
  | null =>
    intro rd v0 hl f rd' g' he
    simp only [bodySem, Sem.skip, Out.done.injEq, Prod.mk.injEq] at he ⊢
    obtain ⟨rfl, rfl, rfl⟩ := he
    exact ⟨_, ⟨rfl, rfl, rfl⟩, by simp⟩
  | bool =>
    refine sims_prim fun a v0 g' h => ?_
    rcases comp_prim hF.plain (by simp) hru hc with ⟨rfl, h1⟩ | ⟨rfl, h1⟩ | ⟨rfl, h1⟩ | ⟨rfl, h1⟩ | ⟨rfl, h1⟩ | ⟨rfl | rfl, h1⟩ | h1 | ⟨fs, ss, h1⟩
    all_goals first
      | exact ⟨_, rfl⟩
      | (exfalso; simp at h1; done)
      | (rw [h1] at h; cases h)
  | int =>
    refine sims_prim fun a v0 g' h => ?_
    rcases comp_prim hF.plain (by simp) hru hc with ⟨rfl, h1⟩ | ⟨rfl, h1⟩ | ⟨rfl, h1⟩ | ⟨rfl, h1⟩ | ⟨rfl, h1⟩ | ⟨rfl | rfl, h1⟩ | h1 | ⟨fs, ss, h1⟩
    all_goals first
      | exact ⟨_, rfl⟩
      | (exfalso; simp at h1; done)
      | (rw [h1] at h; cases h)
  | long =>
    refine sims_prim fun a v0 g' h => ?_
    rcases comp_prim hF.plain (by simp) hru hc with ⟨rfl, h1⟩ | ⟨rfl, h1⟩ | ⟨rfl, h1⟩ | ⟨rfl, h1⟩ | ⟨rfl, h1⟩ | ⟨rfl | rfl, h1⟩ | h1 | ⟨fs, ss, h1⟩
    all_goals first
      | exact ⟨_, rfl⟩
      | (exfalso; simp at h1; done)
      | (rw [h1] at h; cases h)
  | float =>
    refine sims_prim fun a v0 g' h => ?_
    rcases comp_prim hF.plain (by simp) hru hc with ⟨rfl, h1⟩ | ⟨rfl, h1⟩ | ⟨rfl, h1⟩ | ⟨rfl, h1⟩ | ⟨rfl, h1⟩ | ⟨rfl | rfl, h1⟩ | h1 | ⟨fs, ss, h1⟩
    all_goals first
      | exact ⟨_, rfl⟩
      | (exfalso; simp at h1; done)
      | (rw [h1] at h; cases h)
  | double =>
    refine sims_prim fun a v0 g' h => ?_
    rcases comp_prim hF.plain (by simp) hru hc with ⟨rfl, h1⟩ | ⟨rfl, h1⟩ | ⟨rfl, h1⟩ | ⟨rfl, h1⟩ | ⟨rfl, h1⟩ | ⟨rfl | rfl, h1⟩ | h1 | ⟨fs, ss, h1⟩
    all_goals first
      | exact ⟨_, rfl⟩
      | (exfalso; simp at h1; done)
      | (rw [h1] at h; cases h)
  | bytes =>
    refine sims_prim fun a v0 g' h => ?_
    rcases comp_prim hF.plain (by simp) hru hc with ⟨rfl, h1⟩ | ⟨rfl, h1⟩ | ⟨rfl, h1⟩ | ⟨rfl, h1⟩ | ⟨rfl, h1⟩ | ⟨rfl | rfl, h1⟩ | h1 | ⟨fs, ss, h1⟩
    all_goals first
      | exact ⟨_, rfl⟩
      | (exfalso; simp at h1; done)
      | (rw [h1] at h; cases h)
  | string =>
    refine sims_prim fun a v0 g' h => ?_
    rcases comp_prim hF.plain (by simp) hru hc with ⟨rfl, h1⟩ | ⟨rfl, h1⟩ | ⟨rfl, h1⟩ | ⟨rfl, h1⟩ | ⟨rfl, h1⟩ | ⟨rfl | rfl, h1⟩ | h1 | ⟨fs, ss, h1⟩
    all_goals first
      | exact ⟨_, rfl⟩
      | (exfalso; simp at h1; done)
      | (rw [h1] at h; cases h)
  | union ts => simp [Ty.isUnion] at hwu
  | array wi =>
    by_cases hra : ∃ ri, r = .array ri
    · obtain ⟨ri, rfl⟩ := hra
      have hci : Comp we re wi ri := by
        rcases hc with h | h | ⟨_, _, _, h, _⟩ | h | h
        · left; simpa [Ty.readableBy, anyBranch] using h
        · exact .inr (.inl (goName_array h))
        · cases h
        · simp [Ty.isUnion] at h
        · simp [Ty.isUnion] at h
      exact sims_array hs (hE _ _) (ih wi ri (by simpa [Ty.tidy] using hw) (by simpa [Ty.tidy] using hr) hci
        fun h => hnr (.item h)) n
    · exact absurd (.array (fun t h => hra ⟨t, h⟩) fun rs h => by rw [h] at hru; cases hru) hnr
  | map wi =>
    by_cases hra : ∃ ri, r = .map ri
    · obtain ⟨ri, rfl⟩ := hra
      have hci : Comp we re wi ri := by
        rcases hc with h | h | ⟨_, _, _, h, _⟩ | h | h
        · left; simpa [Ty.readableBy, anyBranch] using h
        · exact .inr (.inl (goName_map h))
        · cases h
        · simp [Ty.isUnion] at h
        · simp [Ty.isUnion] at h
      exact sims_map hlim hs (hE _ _) (ih wi ri (by simpa [Ty.tidy] using hw) (by simpa [Ty.tidy] using hr) hci
        fun h => hnr (.value h)) n
    · exact absurd (.map (fun t h => hra ⟨t, h⟩) fun rs h => by rw [h] at hru; cases hru) hnr
  | ref q =>
    by_cases hra : ∃ q', r = .ref q'
    · obtain ⟨q', rfl⟩ := hra
      exact sims_ref hs hF ih hnr
    · exact absurd (.ref (fun t h => hra ⟨t, h⟩) fun rs h => by rw [h] at hru; cases hru) hnr

theorem sims_union (hs : Shrinks ro len) (hF : Fair we re) {n : Nat} (ih : SimOK ro len lim dv we re n)
    {ts : List Ty} {r : Ty} (hw : Ty.tidyMembers ts = true) (hr : r.tidy = true) (hnr : ¬ Refused false we re (.union ts) (some r)) :
    Sims len lim re r (bodySem ro gops we re false n (interp ro gops we re false n) (.union ts) (some r))
      (bodySem ro gfo we re false n (interp ro gfo we re false n) (.union ts) (some r)) := by
  refine .read hs.long_le fun v => ?_
  unfold Sem.pick
  cases ha : atIndex ts v with
  | none => exact .fail _
  | some t =>
    have htmem : t ∈ ts := List.mem_of_getElem? (atIndex_some ha)
    obtain ⟨htu, htt⟩ := tidyMembers_mem hw htmem
    simp only
    have nullExit : ∀ {rs}, Ty.nullable (.union rs) = true →
        Sims (R := R) len lim re (.union rs) Sem.nullExit Sem.nullExit := by
      intro rs hn rd v0 hl f rd' g' he
      simp only [Sem.nullExit, Out.done.injEq, Prod.mk.injEq] at he ⊢
      obtain ⟨rfl, rfl, rfl⟩ := he
      exact ⟨_, ⟨rfl, rfl, rfl⟩, fun _ => hn⟩
    have pun : ∀ rs v0, PUnion rs (.new re (.union rs) v0) (.new re (.union rs)) := fun rs v0 => ⟨_, _, _, _, rfl, rfl⟩
    cases hru : r.isUnion with
    | true =>
      obtain ⟨rs, rfl⟩ : ∃ rs, r = .union rs := by cases r <;> first | exact ⟨_, rfl⟩ | cases hru
      have hrm : Ty.tidyMembers rs = true := by simpa [Ty.tidy] using hr
      have hmem : ∀ {p : Ty → Bool} {j r'}, findIdx p 0 rs = some (j, r') → t.isNull = false → pickBranch we re t rs = some (j, r') →
          Comp we re t r' → Sims len lim re (.union rs) (.member gops j (interp ro gops we re false n t (some r')))
            (.member gfo j (interp ro gfo we re false n t (some r'))) := by
        intro p j r' hf hn hpk hc
        obtain ⟨_, hj, _⟩ := findIdx_getElem hf
        refine Along.sims (P := PUnion rs) (along_member (by simpa using hj)
          (ih t r' htt (tidyMembers_mem hrm (findIdx_mem hf)).2 hc fun h => hnr (.ofUnion htmem (by rintro rfl; cases hn)
            (picks_of hpk) h))) (pun rs) fun _ _ _ _ _ => member_flag
      simp only [memberSem]
      cases hf : findIdx (fun r => r.goName re == t.goName we) 0 rs with
      | some x =>
        obtain ⟨j, r'⟩ := x
        have hg : r'.goName re = t.goName we := by simpa using (findIdx_getElem hf).2.2
        simp only
        cases htn : t.isNull with
        | true =>
          have : t = .null := by cases t <;> first | rfl | cases htn
          subst this
          exact nullExit (nullable_of_goName hF.plain hrm (findIdx_mem hf) hg)
        | false => exact hmem hf htn (by simp only [pickBranch, hf]) (.inr (.inl hg.symm))
      | none =>
        simp only
        cases hf2 : findIdx (t.readableBy we re) 0 rs with
        | some x =>
          obtain ⟨j, r'⟩ := x
          have hg := (findIdx_getElem hf2).2.2
          simp only
          cases htn : t.isNull with
          | true =>
            have : t = .null := by cases t <;> first | rfl | cases htn
            subst this
            have hm := findIdx_mem hf2
            refine nullExit ?_
            simp only [Ty.nullable, List.any_eq_true]
            refine ⟨r', hm, ?_⟩
            have hru' := (tidyMembers_mem hrm hm).1
            cases r' <;> first
              | rfl
              | (simp [Ty.isUnion] at hru'; done)
              | (simp [Ty.readableBy, anyBranch, Ty.readsNull] at hg; done)
          | false => exact hmem hf2 htn (by simp only [pickBranch, hf, hf2]) (.inl hg)
        | none => exact .fail _
    | false =>
      have e : ∀ {T : Type} (fo : FieldOps T), memberSem fo we re (interp ro fo we re false n) t (some r) =
          if t.readableBy we re r then
            if t.isNull then .fail .panic else interp ro fo we re false n t (some r)
          else .fail (.runtime (.noUnionField (t.goName we))) := by
        intro T fo
        cases r <;> first | rfl | cases hru
      rw [e, e]
      split
      · rename_i hread
        split
        · exact .fail _
        · rename_i htn
          exact ih t r htt hr (.inl hread) fun h => hnr (.ofUnionPlain htmem (by rintro rfl; exact htn rfl)
            (by rintro rs rfl; cases hru) (readable_iff.1 hread) h)
      · exact .fail _

theorem sims_main (hlim : lim < 2 ^ 63) (hs : Shrinks ro len) (hF : Fair we re) : ∀ n, SimOK ro len lim dv we re n := by
  intro n
  induction n with
  | zero => intro w r _ _ _ _ rd v0 hl f rd' g' he; simp [interp] at he
  | succ n ih =>
    intro w r hw hr hc hnr
    cases hwu : w.isUnion with
    | true =>
      obtain ⟨ts, rfl⟩ : ∃ ts, w = .union ts := by cases w <;> first | exact ⟨_, rfl⟩ | cases hwu
      exact sims_union hs hF ih (by simpa [Ty.tidy] using hw) hr hnr
    | false =>
      cases hru : r.isUnion with
      | true =>
        obtain ⟨rs, rfl⟩ : ∃ rs, r = .union rs := by cases r <;> first | exact ⟨_, rfl⟩ | cases hru
        have hrm : Ty.tidyMembers rs = true := by simpa [Ty.tidy] using hr
        rw [interp_into hwu, ginterp_into hwu]
        cases hf : findIdx (w.readableBy we re) 0 rs with
        | none => exact .fail _
        | some x =>
          obtain ⟨j, r'⟩ := x
          obtain ⟨_, hj, hp⟩ := findIdx_getElem hf
          obtain ⟨i, -, hi⟩ := first_of_findIdx (fun u => readable_iff) hf
          exact Along.sims (P := PUnion rs) (along_member (by simpa using hj) (ih w r' hw
            (tidyMembers_mem hrm (findIdx_mem hf)).2 (.inl hp) fun h => hnr (.member (notUnion hwu) hi h)))
            (fun v0 => ⟨_, _, _, _, rfl, rfl⟩) fun _ _ _ _ _ => member_flag
      | false =>
        rw [interp_body hru, ginterp_body hru]
        exact sims_body hlim hs hF ih hw hr hwu hru hc hnr
end

/-! ### Deserialize -/

section
variable {σ : Setting R} {view : R → List Byte} {w r : Schema}

/-- The conditions of `GSuited`, no definition of the reader is called like a built-in type, and
the root of the writer's schema can be read as that of the reader's. -/
structure GMatched (w r : Schema) : Prop extends GSuited w r where
  plain : PlainNames r.env
  top : Comp w.env r.env w.root r.root

theorem GMatched.fair (h : GMatched w r) : Fair w.env r.env := ⟨h.sizes, h.tidyW, h.tidyR, h.plain, h.fields⟩

/-- Where decoding into generated structs would not succeed, decoding into generic data fails. -/
theorem gdeserialize_failed (hs : GMatched w r) (hg : Grounded w.env) (hd : σ.ro.Delivers view) (hlim : σ.lim < 2 ^ 63)
    {prog} (hc : compile σ.ord false w r = .ok prog) {rd : R} (hl : (view rd).length ≤ σ.lim) (n : Nat)
    (hno : ∀ m, 2 * n ≤ m → ∃ e, interp σ.ro (genOps r.env σ.lim σ.dv) w.env r.env false m w.root (some r.root) rd
      (.new r.env r.root none) = .err e) : GDeserializes σ w r rd .failed := by
  obtain ⟨main, st, h1, h2⟩ := compile_ok hc
  obtain ⟨hcol, hnn⟩ := hs.toSound.clean h1
  have hsh := delivers_shrinks hd
  obtain ⟨k, hk⟩ := interp_ends hsh (gOps r.env σ.lim) w.env r.env false hg (view rd).length w.root (some r.root)
  have hst := hk (max k (2 * n)) (Nat.le_max_left _ _) rd (.new r.env r.root) (Nat.le_refl _)
  have hrun := run_compiled σ.ro (gOps r.env σ.lim) hs.namesW hs.namesR hs.sizes (gOps_defaultsCommute _ _) h1 hcol hnn h2
    (max k (2 * n)) rd (.new r.env r.root)
  have hnr : ¬ Refused false w.env r.env w.root (some r.root) := by
    intro h
    obtain ⟨e, he⟩ := (compile_error_iff (ord := σ.ord) hs.toSound hs.fields).2 h
    rw [hc] at he; cases he
  cases h3 : interp σ.ro (gOps r.env σ.lim) w.env r.env false (max k (2 * n)) w.root (some r.root) rd (.new r.env r.root) with
  | timeout => exact absurd h3 hst
  | err e => exact .failed hc (hrun.2 e h3)
  | done x =>
    obtain ⟨f, rd', g'⟩ := x
    obtain ⟨t', h4, -⟩ := sims_main (dv := σ.dv) hlim hsh hs.fair (max k (2 * n)) w.root r.root hs.rootW hs.rootR hs.top hnr rd none hl
      _ _ _ h3
    obtain ⟨e, he⟩ := hno _ (Nat.le_max_right _ _)
    rw [h4] at he; cases he

theorem goutcome_unresolved (hs : GMatched w r) (hg : Grounded w.env) (hd : σ.ro.Delivers view) (hlim : σ.lim < 2 ^ 63)
    {prog} (hc : compile σ.ord false w r = .ok prog) {rd : R} (hl : (view rd).length ≤ σ.lim) {d z}
    (hp : ReadsAs σ.ro.byteReader σ.lim w.env w.root (view rd) (some (d, z)))
    (hv : resolve Datum.skippable σ.dv w.env r.env d w.root r.root = none) : GDeserializes σ w r rd .failed := by
  obtain ⟨n, hn⟩ := hp
  obtain ⟨rd', h1, h2⟩ := parse_view hd hn
  refine gdeserialize_failed hs hg hd hlim hc hl n fun m hm => ?_
  have := main_agree (lim := σ.lim) (dv := σ.dv) hs.fair hd.full n w.root r.root m hm hs.rootW hs.rootR hs.nulls hs.top rd none
  rw [h1] at this
  simp only [Out.on, hv] at this
  exact this

theorem goutcome_unreadable (hs : GMatched w r) (hg : Grounded w.env) (hd : σ.ro.Delivers view) (hlim : σ.lim < 2 ^ 63)
    {prog} (hc : compile σ.ord false w r = .ok prog) {rd : R} (hl : (view rd).length ≤ σ.lim)
    (hp : ReadsAs σ.ro.byteReader σ.lim w.env w.root (view rd) none) : GDeserializes σ w r rd .failed := by
  obtain ⟨n, e, hn⟩ := hp
  have h1 := parse_view_err hd hn
  refine gdeserialize_failed hs hg hd hlim hc hl n fun m hm => ?_
  have := main_agree (lim := σ.lim) (dv := σ.dv) hs.fair hd.full n w.root r.root m hm hs.rootW hs.rootR hs.nulls hs.top rd none
  rw [h1] at this
  exact this

/-- How `NewCodec` and `Deserialize` end, on any input. -/
def GOutcome (σ : Setting R) (view : R → List Byte) (w r : Schema) (rd : R) (res : GRes R) : Prop :=
  (res = .refused ∧ ∃ e, compile σ.ord false w r = .error e) ∨
  (∃ prog d rd', compile σ.ord false w r = .ok prog ∧
    ReadsAs σ.ro.byteReader σ.lim w.env w.root (view rd) (some (d, view rd')) ∧
    (resolve Datum.skippable σ.dv w.env r.env d w.root r.root).isSome = true ∧
    res = .of rd' (rootShow w.env r.env d w.root r.root)) ∨
  (∃ prog d z, compile σ.ord false w r = .ok prog ∧
    ReadsAs σ.ro.byteReader σ.lim w.env w.root (view rd) (some (d, z)) ∧
    resolve Datum.skippable σ.dv w.env r.env d w.root r.root = none ∧ res = .failed) ∨
  (∃ prog, compile σ.ord false w r = .ok prog ∧
    ReadsAs σ.ro.byteReader σ.lim w.env w.root (view rd) none ∧ res = .failed)

theorem goutcome_total (hs : GMatched w r) (hg : Grounded w.env) (hd : σ.ro.Delivers view) (hlim : σ.lim < 2 ^ 63)
    (rd : R) (hl : (view rd).length ≤ σ.lim) : ∃ res, GDeserializes σ w r rd res ∧ GOutcome σ view w r rd res := by
  cases hc : compile σ.ord false w r with
  | error e => exact ⟨.refused, .refused hc, .inl ⟨rfl, e, hc⟩⟩
  | ok prog =>
    obtain ⟨a, ha⟩ := reads_total σ.ro.byteReader σ.lim hg w.root (view rd)
    cases a with
    | none => exact ⟨_, goutcome_unreadable hs hg hd hlim hc hl ha, .inr (.inr (.inr ⟨prog, hc, ha, rfl⟩))⟩
    | some x =>
      obtain ⟨d, z⟩ := x
      cases hv : resolve Datum.skippable σ.dv w.env r.env d w.root r.root with
      | none => exact ⟨_, goutcome_unresolved hs hg hd hlim hc hl ha hv, .inr (.inr (.inl ⟨prog, d, z, hc, ha, hv, rfl⟩))⟩
      | some v =>
        obtain ⟨rd', h1, h2⟩ := goutcome_value hs.toGSuited hd hc ha (by rw [hv]; rfl)
        subst h2
        exact ⟨_, h1, .inr (.inl ⟨prog, d, rd', hc, ha, by rw [hv]; rfl, rfl⟩)⟩

theorem goutcome_of (hs : GMatched w r) (hg : Grounded w.env) (hd : σ.ro.Delivers view) (hlim : σ.lim < 2 ^ 63)
    {rd : R} (hl : (view rd).length ≤ σ.lim) {res : GRes R} (h : GDeserializes σ w r rd res) : GOutcome σ view w r rd res := by
  obtain ⟨res', h1, h2⟩ := goutcome_total hs hg hd hlim rd hl
  rw [h.det h1]; exact h2
end
end Verif
