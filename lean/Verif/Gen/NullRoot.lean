import Verif.Gen.Decode
/-
A piece of program that asks for its target to be nulled has left it alone. At the root
nobody asks: `vm.Eval` drops the flag (v10/vm/eval.go:31).
-/
namespace Verif
set_option linter.unusedSimpArgs false
set_option linter.unusedVariables false
variable {R T : Type}

/-- Never asks. -/
def NoAsk (a : Sem R T) : Prop := ∀ r t r' t', a r t ≠ .done (true, r', t')
/-- Asks only when it has not touched the target. -/
def Shy (a : Sem R T) : Prop := ∀ r t r' t', a r t = .done (true, r', t') → t' = t

theorem NoAsk.shy {a : Sem R T} (h : NoAsk a) : Shy a := fun r t r' t' he => absurd he (h r t r' t')

theorem noAsk_skip : NoAsk (Sem.skip : Sem R T) := by intro r t r' t' h; simp [Sem.skip] at h
theorem noAsk_fail (e) : NoAsk (Sem.fail e : Sem R T) := by intro r t r' t' h; simp [Sem.fail] at h
theorem noAsk_noFlag (a : Sem R T) : NoAsk a.noFlag := by
  intro r t r' t' h
  simp only [Sem.noFlag] at h
  split at h <;> simp at h
theorem noAsk_act (f : T → Except Err T) : NoAsk (Sem.act f : Sem R T) := by
  intro r t r' t' h
  simp only [Sem.act] at h
  split at h <;> simp at h
theorem noAsk_seq {a b : Sem R T} (ha : NoAsk a) (hb : NoAsk b) : NoAsk (.seq a b) := by
  intro r t r' t' h
  simp only [Sem.seq] at h
  split at h <;> try (simp at h; done)
  rename_i f r1 t1 h1
  split at h <;> try (simp at h; done)
  rename_i f2 r2 t2 h2
  cases f with
  | true => exact ha _ _ _ _ h1
  | false =>
    cases f2 with
    | true => exact hb _ _ _ _ h2
    | false => simp at h
theorem noAsk_read {α : Type} {rd : R → Except Err (α × R)} {k : α → Sem R T} (h : ∀ a, NoAsk (k a)) :
    NoAsk (.read rd k) := by
  intro r t r' t' he
  simp only [Sem.read] at he
  split at he
  · simp at he
  · exact h _ _ _ _ _ he
theorem shy_read {α : Type} {rd : R → Except Err (α × R)} {k : α → Sem R T} (h : ∀ a, Shy (k a)) :
    Shy (.read rd k) := by
  intro r t r' t' he
  simp only [Sem.read] at he
  split at he
  · simp at he
  · exact h _ _ _ _ _ he
theorem noAsk_sub (fo : FieldOps T) (g p n) (a : Sem R T) : NoAsk (.sub fo g p n a) := by
  intro r t r' t' h
  simp only [Sem.sub] at h
  split at h <;> try (simp at h; done)
  split at h <;> try (simp at h; done)
  split at h <;> try (simp at h; done)
  split at h <;> simp at h
theorem noAsk_member (fo : FieldOps T) (i) (a : Sem R T) : NoAsk (.member fo i a) :=
  noAsk_seq (noAsk_act _) (noAsk_sub _ _ _ _ _)
theorem noAsk_rep (a : Sem R T) : ∀ k, NoAsk (.rep a k)
  | 0 => noAsk_skip
  | k + 1 => noAsk_seq (noAsk_noFlag a) (noAsk_rep a k)
theorem noAsk_blocks (ro : ReaderOps R) (fo : FieldOps T) (a : Sem R T) : ∀ n, NoAsk (.blocks ro fo a n)
  | 0 => by intro r t r' t' h; simp [Sem.blocks] at h
  | n + 1 => by
    unfold Sem.blocks
    refine noAsk_read fun c => ?_
    split
    · exact noAsk_skip
    · split
      · exact noAsk_seq (noAsk_act _) (noAsk_seq (noAsk_rep _ _) (noAsk_blocks ro fo a n))
      · exact noAsk_read fun _ => noAsk_seq (noAsk_act _) (noAsk_seq (noAsk_rep _ _) (noAsk_blocks ro fo a n))
theorem noAsk_prim {α : Type} (rd : R → Except Err (α × R)) (set : T → α → Except Err T) (r) :
    NoAsk (.prim rd set r) := by
  refine noAsk_read fun a => ?_
  split
  · exact noAsk_act _
  · exact noAsk_skip
theorem noAsk_symbol (fo : FieldOps T) (rs d s) : NoAsk (symbolSem fo rs d s : Sem R T) := by
  unfold symbolSem
  split
  · exact noAsk_act _
  · split
    · split
      · exact noAsk_fail _
      · exact noAsk_act _
    · exact noAsk_fail _
theorem noAsk_enum (ro : ReaderOps R) (fo : FieldOps T) (ws r) : NoAsk (enumSem ro fo ws r) := by
  refine noAsk_read fun a => ?_
  split
  · exact noAsk_skip
  · unfold Sem.pick
    split
    · exact noAsk_fail _
    · exact noAsk_symbol _ _ _ _
theorem noAsk_fixed (ro : ReaderOps R) (fo : FieldOps T) (n r) : NoAsk (fixedSem ro fo n r) := by
  intro rd t r' t' h
  simp only [fixedSem] at h
  split at h <;> try (simp at h; done)
  split at h
  · split at h <;> simp at h
  · simp at h

section
variable (ro : ReaderOps R) (fo : FieldOps T) (we re : Env) (lax : Bool)

theorem noAsk_def (rec : Ty → Option Ty → Sem R T) (wd rd) : NoAsk (defSem ro fo we re rec wd rd) := by
  unfold defSem
  split
  · exact noAsk_noFlag _
  · exact noAsk_noFlag _
  · exact noAsk_fixed _ _ _ _
  · exact noAsk_fixed _ _ _ _
  · exact noAsk_enum _ _ _ _
  · exact noAsk_enum _ _ _ _
  · exact noAsk_fail _

theorem noAsk_ref (rec : Ty → Option Ty → Sem R T) (q q') : NoAsk (refSem ro fo we re lax rec q q') := by
  unfold refSem
  split
  · exact noAsk_fail _
  · split
    · exact noAsk_def _ _ _ _ _ _ _
    · split
      · exact noAsk_fail _
      · split
        · exact noAsk_def _ _ _ _ _ _ _
        · exact noAsk_fail _

theorem shy_nullExit : Shy (Sem.nullExit : Sem R T) := by
  intro r t r' t' h
  simp only [Sem.nullExit, Out.done.injEq, Prod.mk.injEq] at h
  exact h.2.2.symm

theorem shy_interp : ∀ n w r, Shy (interp ro fo we re lax n w r)
  | 0, w, r => by intro r t r' t' h; simp [interp] at h
  | n + 1, w, r => by
    unfold interp
    split
    · split
      · exact (noAsk_member _ _ _).shy
      · exact (noAsk_fail _).shy
    · unfold bodySem
      split
      · exact noAsk_skip.shy
      · exact (noAsk_prim _ _ _).shy
      · exact (noAsk_prim _ _ _).shy
      · exact (noAsk_prim _ _ _).shy
      · exact (noAsk_prim _ _ _).shy
      · exact (noAsk_prim _ _ _).shy
      · exact (noAsk_prim _ _ _).shy
      · exact (noAsk_prim _ _ _).shy
      · refine shy_read fun v => ?_
        unfold Sem.pick
        split
        · exact (noAsk_fail _).shy
        · unfold memberSem
          split
          · exact shy_interp n _ _
          · dsimp only
            split
            · split
              · exact shy_nullExit
              · exact (noAsk_member _ _ _).shy
            · split
              · split
                · exact shy_nullExit
                · exact (noAsk_member _ _ _).shy
              · exact (noAsk_fail _).shy
          · dsimp only
            split
            · split
              · exact (noAsk_fail _).shy
              · exact shy_interp n _ _
            · exact (noAsk_fail _).shy
      · split
        · exact (noAsk_blocks _ _ _ _).shy
        · exact (noAsk_blocks _ _ _ _).shy
        · exact (noAsk_fail _).shy
      · split
        · exact (noAsk_blocks _ _ _ _).shy
        · exact (noAsk_blocks _ _ _ _).shy
        · exact (noAsk_fail _).shy
      · split
        · exact (noAsk_ref _ _ _ _ _ _ _ _).shy
        · exact (noAsk_ref _ _ _ _ _ _ _ _).shy
        · exact (noAsk_fail _).shy
end

/-- A null member of the writer's union asks, or fails. -/
theorem interp_null_asks {ro : ReaderOps R} {fo : FieldOps T} {we re : Env} {lax : Bool} {ts rs : List Ty} {r r1 : R}
    {v : BitVec 64} {u : Ty} (h : readLong ro r = .ok (v, r1)) (ha : atIndex ts v = some u) (hu : u.isNull = true)
    (m : Nat) (t : T) (r' t') : interp ro fo we re lax m (.union ts) (some (.union rs)) r t ≠ .done (false, r', t') := by
  cases m with
  | zero => simp [interp]
  | succ m =>
    simp only [interp, Ty.isUnion, bodySem, unionSem, Sem.read, h, Sem.pick, ha, memberSem, hu, if_true]
    cases findIdx (fun r => Ty.goName re r == Ty.goName we u) 0 rs with
    | some x => simp [Sem.nullExit]
    | none =>
      cases findIdx (Ty.readableBy we re u) 0 rs with
      | some x => simp [Sem.nullExit]
      | none => simp [Sem.fail]

theorem atIndex_toNat {α : Type} {l : List α} {v : BitVec 64} {a : α} (h : atIndex l v = some a) :
    l[v.toNat]? = some a := by
  unfold atIndex at h
  split at h
  · rename_i h0
    have : v.toInt.toNat = v.toNat := by
      rw [BitVec.toInt_eq_toNat_cond] at h0 ⊢
      split
      · simp
      · rename_i hc; simp [hc] at h0; omega
    rwa [this] at h
  · cases h

/-- When null is read at the root, the program asks for its target to be nulled. -/
theorem root_null_asks {σ : Setting R} {w r : Schema} (hs : Suited w r) {rs : List Ty} (hr : r.root = .union rs)
    {rd rd' rd'' : R} {n m : Nat} {d : Datum} (hp : parse σ.ro σ.lim w.env n w.root rd = .done (d, rd'))
    (hv : resolve Datum.skippable σ.dv w.env r.env d w.root r.root = some .nil) {t t' : Tgt}
    (h : interp σ.ro (genOps r.env σ.lim σ.dv) w.env r.env false m w.root (some r.root) rd t = .done (false, rd'', t')) : False := by
  rw [hr] at hv
  -- the writer's root is a union, and its null member was written
  obtain ⟨ts, i, d', hw, rfl⟩ : ∃ ts i d', w.root = .union ts ∧ d = .union i d' := by
    have hroot := hs.nulls
    cases d
    case null =>
      simp only [resolve] at hv
      split at hv
      · rename_i hn
        cases hw : w.root <;> rw [hw] at hn hroot <;> simp only [Ty.isNull] at hn <;> try (cases hn; done)
        have := hroot.null
        rw [hr] at this
        cases this
      · cases hv
    case union i d' =>
      cases hw : w.root <;> rw [hw] at hv <;> simp only [resolve] at hv <;> try (cases hv; done)
      exact ⟨_, _, _, rfl, rfl⟩
    all_goals
      exfalso
      cases hw : w.root <;> rw [hw] at hv <;> simp only [resolve] at hv <;> first
      | (cases hv; done)
      | (obtain ⟨_, _, hx⟩ := intoReader_union_shape hv; cases hx)
  rw [hw] at hp hv
  rw [hw, hr] at h
  cases n with
  | zero => simp [parse] at hp
  | succ n =>
  simp only [parse] at hp
  split at hp <;> try (simp at hp; done)
  rename_i v r1 hl
  split at hp <;> try (simp at hp; done)
  rename_i u ha
  cases hpp : parse σ.ro σ.lim w.env n u r1 with
  | timeout => rw [hpp] at hp; simp [Out.bind] at hp
  | err e => rw [hpp] at hp; simp [Out.bind] at hp
  | done x =>
    rw [hpp] at hp
    simp only [Out.bind, Out.done.injEq, Prod.mk.injEq, Datum.union.injEq] at hp
    obtain ⟨⟨rfl, rfl⟩, rfl⟩ := hp
    simp only [resolve, atIndex_toNat ha] at hv
    split at hv
    · rename_i hn
      exact interp_null_asks hl ha hn _ _ _ _ h
    · split at hv
      · cases hv
      · simp only [Option.map_eq_some_iff] at hv
        obtain ⟨_, _, hx⟩ := hv
        cases hx

/-- Null at the root: the union is returned as it was constructed. -/
theorem deserialize_null {σ : Setting R} {w r : Schema} {prog : Program} (hs : Suited w r)
    (hR : FullReads σ.ro) (hc : compile σ.ord false w r = .ok prog) {rd rd' : R} {n : Nat} {d : Datum}
    (hp : parse σ.ro σ.lim w.env n w.root rd = .done (d, rd'))
    (hv : resolve Datum.skippable σ.dv w.env r.env d w.root r.root = some .nil) :
    Deserializes σ w r rd (.value (.union 0 none) rd') := by
  have hru : ∃ rs, r.root = .union rs := by
    rcases hs.top with ⟨q, df, fs, h1, h2, h3⟩ | hu
    · rw [h1] at hv
      obtain ⟨vs, h⟩ := resolve_record_shape h2 h3 d _ _ hv
      cases h
    · cases hr : r.root <;> rw [hr] at hu <;> first | exact ⟨_, rfl⟩ | simp [Ty.isUnion] at hu
  obtain ⟨rs, hr⟩ := hru
  obtain ⟨m, h1, h2, h3⟩ := decode_agree hs hR hc rd n
  have hp0 := hp
  rw [hp] at h1
  simp only [Out.on, hv, ValFits] at h1
  obtain ⟨t', h | h⟩ := h1
  · have := shy_interp _ _ _ _ _ m _ _ _ _ _ _ h.1
    subst this
    exact .value hc (h2 _ _ _ h.1) (by rw [hr]; rfl)
  · exact (root_null_asks hs hr hp0 hv h.1).elim
end Verif
