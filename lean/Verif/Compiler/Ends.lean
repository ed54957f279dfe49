import Verif.Compiler.Fuel
import Verif.Gen.ParseProps
set_option linter.unusedSimpArgs false
set_option linter.unusedVariables false
/-
Whatever the target, decoding only takes from the input, and it comes to an end when no record
of the writer contains itself.
-/
namespace Verif
variable {R T : Type}

/-! ### What is read gets less -/

/-- A measure of what is left to read. -/
structure Shrinks (ro : ReaderOps R) (len : R → Nat) : Prop where
  bool : ∀ r v r', readBool ro r = .ok (v, r') → len r' ≤ len r
  int : ∀ r v r', readInt ro r = .ok (v, r') → len r' ≤ len r
  long : ∀ r v r', readLong ro r = .ok (v, r') → len r' + 1 ≤ len r
  float : ∀ r v r', readFloat ro r = .ok (v, r') → len r' ≤ len r
  double : ∀ r v r', readDouble ro r = .ok (v, r') → len r' ≤ len r
  bytes : ∀ r v r', readBytes ro r = .ok (v, r') → len r' ≤ len r
  string : ∀ r v r', readString ro r = .ok (v, r') → len r' + 1 ≤ len r
  fixed : ∀ n r v r', readFixed ro n r = .ok (v, r') → len r' ≤ len r

theorem Shrinks.long_le {ro : ReaderOps R} {len : R → Nat} (h : Shrinks ro len) :
    ∀ r v r', readLong ro r = .ok (v, r') → len r' ≤ len r :=
  fun r v r' hr => by have := h.long r v r' hr; omega

/-- The piece reads at least `k`. -/
def Eats (len : R → Nat) (k : Nat) (a : Sem R T) : Prop :=
  ∀ r t f r' t', a r t = .done (f, r', t') → len r' + k ≤ len r

section
variable {len : R → Nat}

theorem eats_skip : Eats len 0 (Sem.skip : Sem R T) := by
  intro r t f r' t' h; simp only [Sem.skip, Out.done.injEq, Prod.mk.injEq] at h; rw [h.2.1]; omega
theorem eats_fail {k} (e) : Eats len k (Sem.fail e : Sem R T) := by
  intro r t f r' t' h; simp [Sem.fail] at h
theorem eats_nullExit : Eats len 0 (Sem.nullExit : Sem R T) := by
  intro r t f r' t' h; simp only [Sem.nullExit, Out.done.injEq, Prod.mk.injEq] at h
  rw [h.2.1]; omega
theorem eats_seq {a b : Sem R T} {j k} (ha : Eats len j a) (hb : Eats len k b) : Eats len (j + k) (.seq a b) := by
  intro r t f r' t' h
  simp only [Sem.seq] at h
  split at h <;> try (simp at h; done)
  rename_i f1 r1 t1 h1
  split at h <;> try (simp at h; done)
  rename_i f2 r2 t2 h2
  simp only [Out.done.injEq, Prod.mk.injEq] at h
  have := ha _ _ _ _ _ h1
  have := hb _ _ _ _ _ h2
  rw [← h.2.1]; omega
theorem eats_noFlag {a : Sem R T} {k} (ha : Eats len k a) : Eats len k a.noFlag := by
  intro r t f r' t' h
  simp only [Sem.noFlag] at h
  split at h <;> try (simp at h; done)
  rename_i f1 r1 t1 h1
  simp only [Out.done.injEq, Prod.mk.injEq] at h
  have := ha _ _ _ _ _ h1
  rw [← h.2.1]; omega
theorem eats_act (f : T → Except Err T) : Eats len 0 (Sem.act f : Sem R T) := by
  intro r t g r' t' h
  simp only [Sem.act] at h
  split at h <;> try (simp at h; done)
  simp only [Out.done.injEq, Prod.mk.injEq] at h
  rw [h.2.1]; omega
theorem eats_read {α : Type} {rd : R → Except Err (α × R)} {k : α → Sem R T} {i j}
    (hr : ∀ r v r', rd r = .ok (v, r') → len r' + i ≤ len r) (h : ∀ a, Eats len j (k a)) :
    Eats len (i + j) (.read rd k) := by
  intro r t f r' t' he
  simp only [Sem.read] at he
  split at he
  · simp at he
  · rename_i a r1 h1
    have := hr _ _ _ h1
    have := h _ _ _ _ _ _ he
    omega
theorem eats_sub (fo : FieldOps T) (g p n) {a : Sem R T} {k} (ha : Eats len k a) : Eats len k (.sub fo g p n a) := by
  intro r t f r' t' h
  simp only [Sem.sub] at h
  split at h <;> try (simp at h; done)
  split at h <;> try (simp at h; done)
  rename_i f1 r1 t1 h1
  split at h <;> try (simp at h; done)
  split at h <;> try (simp at h; done)
  simp only [Out.done.injEq, Prod.mk.injEq] at h
  have := ha _ _ _ _ _ h1
  rw [← h.2.1]; omega
theorem eats_rep {a : Sem R T} {k} (ha : Eats len k a) : ∀ n, Eats len (n * k) (.rep a n)
  | 0 => by rw [Nat.zero_mul]; exact eats_skip
  | n + 1 => by
    rw [Nat.add_mul, Nat.one_mul, Nat.add_comm]
    exact eats_seq (eats_noFlag ha) (eats_rep ha n)
theorem Eats.weak {a : Sem R T} {k} (h : Eats len k a) : Eats len 0 a := by
  intro r t f r' t' he; have := h _ _ _ _ _ he; omega

variable {ro : ReaderOps R} (hs : Shrinks ro len) (fo : FieldOps T)
include hs

theorem eats_blocks {a : Sem R T} (ha : Eats len 0 a) : ∀ n, Eats len 0 (.blocks ro fo a n)
  | 0 => by intro r t f r' t' h; simp [Sem.blocks] at h
  | n + 1 => by
    unfold Sem.blocks
    have hb : ∀ c : BitVec 64, Eats len 0 (.seq (.act fun t => fo.hintSize t c) (.seq (.rep a c.toNat) (Sem.blocks ro fo a n))) := by
      intro c
      exact (eats_seq (eats_act _) (eats_seq (eats_rep ha _) (eats_blocks ha n))).weak
    refine (eats_read (i := 0) (j := 0) hs.long_le fun c => ?_)
    split
    · exact eats_skip
    · split
      · exact hb c
      · exact eats_read (i := 0) (j := 0) hs.long_le fun _ => hb (-c)

theorem eats_prim {α : Type} {rd : R → Except Err (α × R)} (set : T → α → Except Err T) (r)
    (hr : ∀ r v r', rd r = .ok (v, r') → len r' ≤ len r) : Eats len 0 (.prim rd set r) := by
  refine eats_read (i := 0) (j := 0) hr fun a => ?_
  split
  · exact eats_act _
  · exact eats_skip

theorem eats_member (i) {a : Sem R T} (ha : Eats len 0 a) : Eats len 0 (.member fo i a) :=
  eats_seq (j := 0) (k := 0) (eats_act _) (eats_sub _ _ _ _ ha)

variable (we re : Env) (lax : Bool)

theorem eats_memberSem {rec : Ty → Option Ty → Sem R T} (h : ∀ w r, Eats len 0 (rec w r)) (t r) :
    Eats len 0 (memberSem fo we re rec t r) := by
  unfold memberSem
  repeat' split
  all_goals first
    | exact h _ _
    | exact eats_nullExit
    | exact eats_member hs _ _ (h _ _)
    | exact eats_fail _

theorem doRead_eats {arg fr r fr' r'} (h : doRead ro arg fr r = .ok (fr', r')) : len r' ≤ len r := by
  have key : ∀ {α : Type} {g : α → Frame} {x : Except Err (α × R)},
      mapOk g x = .ok (fr', r') → (∀ v r', x = .ok (v, r') → len r' ≤ len r) → len r' ≤ len r := by
    intro α g x he hx
    cases x with
    | error e => cases he
    | ok y =>
      obtain ⟨v, r1⟩ := y
      simp only [mapOk, Except.ok.injEq, Prod.mk.injEq] at he
      rw [← he.2]; exact hx v r1 rfl
  unfold doRead at h
  split at h
  · simp only [Except.ok.injEq, Prod.mk.injEq] at h; rw [h.2]; omega
  split at h
  · exact key h (hs.bool r)
  split at h
  · exact key h (hs.int r)
  split at h
  · exact key h (hs.long_le r)
  split at h
  · exact key h (hs.long_le r)
  split at h
  · exact key h (hs.float r)
  split at h
  · exact key h (hs.double r)
  split at h
  · exact key h (hs.bytes r)
  split at h
  · exact key h fun v r1 h1 => by have := hs.string r v r1 h1; omega
  · exact key h (hs.fixed _ r)

theorem eats_fields {rec : Ty → Option Ty → Sem R T} (h : ∀ w r, Eats len 0 (rec w r)) (reader) :
    ∀ ws, Eats len 0 (fieldsSem fo we re rec reader ws)
  | [] => eats_skip
  | w :: ws => by
    unfold fieldsSem
    split
    · exact eats_seq (j := 0) (k := 0) (h _ _) (eats_fields h reader ws)
    · split
      · exact eats_seq (j := 0) (k := 0) (eats_sub _ _ _ _ (h _ _)) (eats_fields h reader ws)
      · exact eats_fail _

theorem eats_defaults : ∀ l, Eats len 0 (defaultsSem fo l : Sem R T)
  | [] => eats_skip
  | (i, _) :: l => eats_seq (j := 0) (k := 0) (eats_act _) (eats_defaults l)

theorem eats_record {rec : Ty → Option Ty → Sem R T} (h : ∀ w r, Eats len 0 (rec w r)) (wfs reader) :
    Eats len 0 (recordSem fo we re rec wfs reader) :=
  eats_noFlag (eats_seq (j := 0) (k := 0) (eats_fields hs fo we re h _ _) (eats_defaults hs fo _))

theorem eats_fixed (n b) : Eats len 0 (fixedSem ro fo n b) := by
  intro r t f r' t' h
  simp only [fixedSem] at h
  split at h
  · cases h
  · rename_i fr r1 h1
    have := doRead_eats hs h1
    split at h
    · split at h
      · cases h
      · simp only [Out.done.injEq, Prod.mk.injEq] at h; rw [← h.2.1]; omega
    · simp only [Out.done.injEq, Prod.mk.injEq] at h; rw [← h.2.1]; omega

theorem eats_enum (ss r) : Eats len 0 (enumSem ro fo ss r) := by
  refine eats_read (i := 0) (j := 0) hs.long_le fun v => ?_
  split
  · exact eats_skip
  · unfold Sem.pick
    split
    · exact eats_fail _
    · unfold symbolSem
      repeat' split
      all_goals first | exact eats_act _ | exact eats_fail _

theorem eats_def {rec : Ty → Option Ty → Sem R T} (h : ∀ w r, Eats len 0 (rec w r)) (wd rd) :
    Eats len 0 (defSem ro fo we re rec wd rd) := by
  unfold defSem
  split
  all_goals first
    | exact eats_record hs _ _ _ h _ _
    | exact eats_fixed hs _ _ _
    | exact eats_enum hs _ _ _
    | exact eats_fail _

theorem eats_ref {rec : Ty → Option Ty → Sem R T} (h : ∀ w r, Eats len 0 (rec w r)) (q q') :
    Eats len 0 (refSem ro fo we re lax rec q q') := by
  unfold refSem
  repeat' split
  all_goals first
    | exact eats_def hs _ _ _ h _ _
    | exact eats_fail _

theorem eats_entry {a : Sem R T} (ha : Eats len 0 a) : Eats len 1 (entrySem ro fo a) :=
  eats_read (i := 1) (j := 0) hs.string fun _ => eats_sub _ _ _ _ ha

theorem eats_body {rec : Ty → Option Ty → Sem R T} (h : ∀ w r, Eats len 0 (rec w r)) (n w r) :
    Eats len 0 (bodySem ro fo we re lax n rec w r) := by
  cases w <;> simp only [bodySem]
  case null => exact eats_skip
  case bool => exact eats_prim hs _ _ hs.bool
  case int => exact eats_prim hs _ _ hs.int
  case long => exact eats_prim hs _ _ hs.long_le
  case float => exact eats_prim hs _ _ hs.float
  case double => exact eats_prim hs _ _ hs.double
  case bytes => exact eats_prim hs _ _ hs.bytes
  case string => exact eats_prim hs _ _ fun r v r' h => by have := hs.string r v r' h; omega
  case union ts =>
    refine eats_read (i := 0) (j := 0) hs.long_le fun v => ?_
    unfold Sem.pick
    split
    · exact eats_fail _
    · exact eats_memberSem hs _ _ _ h _ _
  case array wi =>
    split
    · exact eats_blocks hs _ (h _ _) n
    · exact eats_blocks hs _ (eats_sub _ _ _ _ (h _ _)) n
    · exact eats_fail _
  case map wi =>
    split
    · exact eats_blocks hs _ (eats_read (i := 1) (j := 0) hs.string fun _ => h _ _).weak n
    · exact eats_blocks hs _ (eats_entry hs _ (h _ _)).weak n
    · exact eats_fail _
  case ref q =>
    split
    · exact eats_ref hs _ _ _ _ h _ _
    · exact eats_ref hs _ _ _ _ h _ _
    · exact eats_fail _

/-- Decoding does not put anything back. -/
theorem eats_interp : ∀ n w r, Eats len 0 (interp ro fo we re lax n w r)
  | 0, _, _ => by intro r t f r' t' h; simp [interp] at h
  | n + 1, w, r => by
    have ih := eats_interp n
    unfold interp
    split
    · split
      · exact eats_member hs _ _ (ih _ _)
      · exact eats_fail _
    · exact eats_body hs _ _ _ _ ih _ _ _
end


theorem delivers_shrinks {o : ReaderOps R} {view : R → List Byte} (h : o.Delivers view) :
    Shrinks o (fun r => (view r).length) := by
  have key : ∀ {α : Type} {f : R → Except Err (α × R)} {g : List Byte → Except Err (α × List Byte)} {e : Nat},
      (∀ r, vmap view (f r) = g (view r)) → (∀ r a r', g r = .ok (a, r') → r'.length + e ≤ r.length) →
      ∀ r a r', f r = .ok (a, r') → (view r').length + e ≤ (view r).length := by
    intro α f g e h1 h2 r a r' hx
    have h3 := h1 r
    rw [hx] at h3
    exact h2 _ _ _ h3.symm
  refine ⟨key (e := 0) (sim_readBool h) ?_, key (e := 0) (sim_readInt h) (Local.shrink (local_readInt _)),
    key (e := 1) (sim_readLong h) fun _ _ _ => readLong_consumes,
    key (e := 0) (sim_readFloat h) (Local.shrink (local_readFloat _)), key (e := 0) (sim_readDouble h) (Local.shrink (local_readDouble _)),
    key (e := 0) (sim_readSized h _) (Local.shrink (local_readSized _ _)), key (e := 1) (sim_readSized h _) ?_,
    fun n => key (e := 0) (sim_readFixed h n) (Local.shrink (local_readFixed _ n))⟩
  · intro r a r' hx
    cases r with
    | nil =>
      cases hk : o.byteReader <;> rw [hk] at hx
      · simp [readBool, flatOps, flatReadFull] at hx
      · simp only [readBool, flatOps, flatReadByte, if_true, Except.ok.injEq, Prod.mk.injEq] at hx
        rw [← hx.2]; simp
    | cons b r =>
      rw [readBool_cons] at hx
      simp only [Except.ok.injEq, Prod.mk.injEq] at hx
      rw [← hx.2]; simp
  · intro r a r' hx
    unfold readSized bindOk at hx
    cases h1 : readLong (flatOps o.byteReader) r with
    | error e => rw [h1] at hx; cases hx
    | ok x =>
      obtain ⟨n, r1⟩ := x
      rw [h1] at hx
      have := readLong_consumes h1
      simp only at hx
      split at hx
      · cases hx
      · split at hx
        · cases hx; omega
        · have := (local_readFull n.toNat).shrink _ _ _ hx
          omega

/-! ### It comes to an end -/

/-- The piece comes to an end on inputs up to a length. -/
def EndsOn (len : R → Nat) (L : Nat) (a : Sem R T) : Prop := ∀ r t, len r ≤ L → a r t ≠ .timeout

section
variable {len : R → Nat} {L : Nat}

theorem EndsOn.le {a : Sem R T} {l : Nat} (h : EndsOn len L a) (hl : l ≤ L) : EndsOn len l a :=
  fun r t hr => h r t (by omega)

theorem stops_skip : EndsOn len L (Sem.skip : Sem R T) := by intro r t _; simp [Sem.skip]
theorem stops_fail (e) : EndsOn len L (Sem.fail e : Sem R T) := by intro r t _; simp [Sem.fail]
theorem stops_nullExit : EndsOn len L (Sem.nullExit : Sem R T) := by intro r t _; simp [Sem.nullExit]
theorem stops_act (f : T → Except Err T) : EndsOn len L (Sem.act f : Sem R T) := by
  intro r t _; simp only [Sem.act]; split <;> simp

theorem stops_seq {a b : Sem R T} (ea : Eats len 0 a) (ha : EndsOn len L a) (hb : EndsOn len L b) : EndsOn len L (.seq a b) := by
  intro r t hr
  simp only [Sem.seq]
  split
  · rename_i h; exact absurd h (ha r t hr)
  · simp
  · rename_i f r' t' h
    have := ea _ _ _ _ _ h
    split
    · rename_i h'; exact absurd h' (hb r' t' (by omega))
    · simp
    · simp

theorem stops_noFlag {a : Sem R T} (ha : EndsOn len L a) : EndsOn len L a.noFlag := by
  intro r t hr
  simp only [Sem.noFlag]
  split
  · rename_i h; exact absurd h (ha r t hr)
  · simp
  · simp

theorem stops_read {α : Type} {rd : R → Except Err (α × R)} {k : α → Sem R T}
    (hr : ∀ r v r', rd r = .ok (v, r') → len r' ≤ len r) (h : ∀ a, EndsOn len L (k a)) : EndsOn len L (.read rd k) := by
  intro r t hl
  simp only [Sem.read]
  split
  · simp
  · rename_i a r' h1
    have := hr _ _ _ h1
    exact h a r' t (by omega)

/-- What follows a read that takes something runs on less. -/
theorem stops_read_lt {α : Type} {rd : R → Except Err (α × R)} {k : α → Sem R T}
    (hr : ∀ r v r', rd r = .ok (v, r') → len r' + 1 ≤ len r) (h : ∀ l, l < L → ∀ a, EndsOn len l (k a)) :
    EndsOn len L (.read rd k) := by
  intro r t hl
  simp only [Sem.read]
  split
  · simp
  · rename_i a r' h1
    have := hr _ _ _ h1
    exact h (len r') (by omega) a r' t (Nat.le_refl _)

theorem stops_sub (fo : FieldOps T) (g p n) {a : Sem R T} (ha : EndsOn len L a) : EndsOn len L (.sub fo g p n a) := by
  intro r t hr
  simp only [Sem.sub]
  split
  · simp
  · split
    · rename_i h; exact absurd h (ha r _ hr)
    · simp
    · split
      · simp
      · split <;> simp

theorem stops_member (fo : FieldOps T) (i) {a : Sem R T} (ha : EndsOn len L a) : EndsOn len L (.member fo i a) :=
  stops_seq (eats_act _) (stops_act _) (stops_sub _ _ _ _ ha)

theorem stops_rep {a : Sem R T} (ea : Eats len 0 a) (ha : EndsOn len L a) : ∀ n, EndsOn len L (.rep a n)
  | 0 => stops_skip
  | n + 1 => stops_seq (eats_noFlag ea) (stops_noFlag ha) (stops_rep ea ha n)

variable {ro : ReaderOps R} (hs : Shrinks ro len) (fo : FieldOps T)
include hs

/-- The count of each block takes a byte. -/
theorem stops_blocks {a : Sem R T} (ea : Eats len 0 a) : ∀ L, (∀ l, l < L → EndsOn len l a) → ∀ n, L < n →
    EndsOn len L (.blocks ro fo a n) := by
  intro L
  induction L using Nat.strongRecOn with
  | ind L ih =>
    intro ha n hn
    obtain ⟨m, rfl⟩ : ∃ m, n = m + 1 := ⟨n - 1, by omega⟩
    have hb : ∀ l, l < L → ∀ c : BitVec 64,
        EndsOn len l (.seq (.act fun t => fo.hintSize t c) (.seq (.rep a c.toNat) (Sem.blocks ro fo a m))) := by
      intro l hl c
      refine stops_seq (eats_act _) (stops_act _) (stops_seq (eats_rep ea _).weak (stops_rep ea (ha l hl) _) ?_)
      exact ih l hl (fun l' hl' => ha l' (by omega)) m (by omega)
    unfold Sem.blocks
    refine stops_read_lt hs.long fun l hl c => ?_
    split
    · exact stops_skip
    · split
      · exact hb l hl c
      · exact stops_read hs.long_le fun _ => hb l hl (-c)

theorem stops_prim {α : Type} {rd : R → Except Err (α × R)} (set : T → α → Except Err T) (r)
    (hr : ∀ r v r', rd r = .ok (v, r') → len r' ≤ len r) : EndsOn len L (.prim rd set r) := by
  refine stops_read hr fun a => ?_
  split
  · exact stops_act _
  · exact stops_skip

theorem stops_fixed (n b) : EndsOn len L (fixedSem ro fo n b) := by
  intro r t _
  simp only [fixedSem]
  split
  · simp
  · split
    · split <;> simp
    · simp

theorem stops_enum (ss r) : EndsOn len L (enumSem ro fo ss r) := by
  refine stops_read hs.long_le fun v => ?_
  split
  · exact stops_skip
  · unfold Sem.pick
    split
    · exact stops_fail _
    · unfold symbolSem
      repeat' split
      all_goals first | exact stops_act _ | exact stops_fail _

theorem stops_defaults : ∀ l, EndsOn len L (defaultsSem fo l : Sem R T)
  | [] => stops_skip
  | (i, _) :: l => stops_seq (eats_act _) (stops_act _) (stops_defaults l)

variable (we re : Env) (lax : Bool)

theorem stops_fields {rec : Ty → Option Ty → Sem R T} (he : ∀ w r, Eats len 0 (rec w r)) (reader : Option (List Field)) :
    ∀ ws : List Field, (∀ w ∈ ws, EndsOn len L (rec w.ty ((reader.bind fun rfs => fieldByName rfs w.name).map fun x => x.2.ty))) →
      EndsOn len L (fieldsSem fo we re rec reader ws)
  | [], _ => stops_skip
  | w :: ws, h => by
    have hw := h w (by simp)
    have ih := stops_fields he reader ws fun w' hw' => h w' (by simp [hw'])
    unfold fieldsSem
    split
    · rename_i h1
      rw [h1] at hw
      exact stops_seq (he _ _) hw ih
    · rename_i i rf h1
      rw [h1] at hw
      split
      · exact stops_seq (eats_sub _ _ _ _ (he _ _)) (stops_sub _ _ _ _ hw) ih
      · exact stops_fail _
end

section
variable {len : R → Nat} {ro : ReaderOps R} (hs : Shrinks ro len) (fo : FieldOps T) (we re : Env) (lax : Bool)
include hs

/-- On inputs up to any length, some bound suffices, whatever the target. -/
theorem interp_ends (hg : Grounded we) : ∀ (L : Nat) (w : Ty) (r : Option Ty), ∃ n, ∀ m, n ≤ m →
    EndsOn len L (interp ro fo we re lax m w r) := by
  obtain ⟨rank, hrank⟩ := hg
  have hE := eats_interp hs fo we re lax
  intro L
  induction L using Nat.strongRecOn with
  | ind L ihL =>
    have low : ∀ w r, ∃ n, ∀ m, n ≤ m → ∀ l, l < L → EndsOn len l (interp ro fo we re lax m w r) := by
      intro w r
      cases L with
      | zero => exact ⟨0, fun m _ l hl => by omega⟩
      | succ L =>
        obtain ⟨n, hn⟩ := ihL L (by omega) w r
        exact ⟨n, fun m hm l hl => (hn m hm).le (by omega)⟩
    -- it is enough to look at the bodies
    have lift : ∀ w, (∀ r, ∃ n, ∀ m, n ≤ m → EndsOn len L (bodySem ro fo we re lax m (interp ro fo we re lax m) w r)) →
        ∀ r, ∃ n, ∀ m, n ≤ m → EndsOn len L (interp ro fo we re lax m w r) := by
      intro w hb r
      have body : ∀ r, (w.isUnion = true ∨ ∀ rs, r ≠ some (.union rs)) →
          ∃ n, ∀ m, n ≤ m → EndsOn len L (interp ro fo we re lax m w r) := by
        intro r hu
        obtain ⟨n, hn⟩ := hb r
        refine ⟨n + 1, fun m hm => ?_⟩
        obtain ⟨m', rfl⟩ : ∃ m', m = m' + 1 := ⟨m - 1, by omega⟩
        have : interp ro fo we re lax (m' + 1) w r = bodySem ro fo we re lax m' (interp ro fo we re lax m') w r := by
          conv => lhs; unfold interp
          split
          · rename_i rs h1
            rcases hu with h | h
            · rw [h1] at h; cases h
            · exact absurd rfl (h rs)
          · rfl
        rw [this]
        exact hn m' (by omega)
      have into : ∀ (k : Nat) (r : Ty), sizeOf r < k →
          ∃ n, ∀ m, n ≤ m → EndsOn len L (interp ro fo we re lax m w (some r)) := by
        intro k
        induction k with
        | zero => intro r h; omega
        | succ k ih =>
          intro r hk
          by_cases hu : w.isUnion = true
          · exact body _ (.inl hu)
          · by_cases hr : ∃ rs, r = .union rs
            · obtain ⟨rs, rfl⟩ := hr
              have hu' : w.isUnion = false := by simpa using hu
              have unf : ∀ m, interp ro fo we re lax (m + 1) w (some (.union rs)) =
                  match findIdx (w.readableBy we re) 0 rs with
                  | some (i, r') => .member fo i (interp ro fo we re lax m w (some r'))
                  | none => .fail .panic := by
                intro m
                cases w <;> first | (exfalso; simp [Ty.isUnion] at hu'; done) | (simp only [interp, Ty.isUnion]; rfl)
              cases hf : findIdx (w.readableBy we re) 0 rs with
              | none =>
                refine ⟨1, fun m hm => ?_⟩
                obtain ⟨m', rfl⟩ : ∃ m', m = m' + 1 := ⟨m - 1, by omega⟩
                rw [unf, hf]
                exact stops_fail _
              | some x =>
                obtain ⟨i, r'⟩ := x
                have h1 : sizeOf r' < sizeOf rs := List.sizeOf_lt_of_mem (findIdx_mem hf)
                have h2 : sizeOf (Ty.union rs) = 1 + sizeOf rs := by simp
                obtain ⟨n, hn⟩ := ih r' (by omega)
                refine ⟨n + 1, fun m hm => ?_⟩
                obtain ⟨m', rfl⟩ : ∃ m', m = m' + 1 := ⟨m - 1, by omega⟩
                rw [unf, hf]
                exact stops_member _ _ (hn m' (by omega))
            · exact body _ (.inr fun rs h => hr ⟨rs, by simpa using h⟩)
      cases r with
      | none => exact body none (.inr fun rs h => by cases h)
      | some r => exact into _ r (Nat.lt_succ_self _)
    have const : ∀ {a : Nat → Sem R T}, (∀ m, EndsOn len L (a m)) → ∃ n, ∀ m, n ≤ m → EndsOn len L (a m) :=
      fun h => ⟨0, fun m _ => h m⟩
    -- types that are no references
    have flat : ∀ w, (∀ q, w ≠ .ref q) → ∀ r, ∃ n, ∀ m, n ≤ m → EndsOn len L (interp ro fo we re lax m w r) := by
      intro w hw
      refine lift w fun r => ?_
      cases w <;> simp only [bodySem]
      case null => exact const fun m => stops_skip
      case bool => exact const fun m => stops_prim hs _ _ hs.bool
      case int => exact const fun m => stops_prim hs _ _ hs.int
      case long => exact const fun m => stops_prim hs _ _ hs.long_le
      case float => exact const fun m => stops_prim hs _ _ hs.float
      case double => exact const fun m => stops_prim hs _ _ hs.double
      case bytes => exact const fun m => stops_prim hs _ _ hs.bytes
      case string => exact const fun m => stops_prim hs _ _ fun r v r' h => by have := hs.string r v r' h; omega
      case array wi =>
        split
        · obtain ⟨n, hn⟩ := low wi none
          exact ⟨max n (L + 1), fun m hm => stops_blocks hs fo (hE _ _ _) L (hn m (by omega)) m (by omega)⟩
        · rename_i ri
          obtain ⟨n, hn⟩ := low wi (some ri)
          exact ⟨max n (L + 1), fun m hm => stops_blocks hs fo (eats_sub _ _ _ _ (hE _ _ _)) L
            (fun l hl => stops_sub _ _ _ _ (hn m (by omega) l hl)) m (by omega)⟩
        · exact const fun m => stops_fail _
      case map wi =>
        split
        · obtain ⟨n, hn⟩ := low wi none
          exact ⟨max n (L + 1), fun m hm => stops_blocks hs fo (eats_read (i := 1) (j := 0) hs.string fun _ => hE _ _ _).weak L
            (fun l hl => stops_read (fun r v r' h => by have := hs.string r v r' h; omega) fun _ => hn m (by omega) l hl) m (by omega)⟩
        · rename_i ri
          obtain ⟨n, hn⟩ := low wi (some ri)
          exact ⟨max n (L + 1), fun m hm => stops_blocks hs fo (eats_entry hs fo (hE _ _ _)).weak L
            (fun l hl => stops_read (fun r v r' h => by have := hs.string r v r' h; omega)
              fun _ => stops_sub _ _ _ _ (hn m (by omega) l hl)) m (by omega)⟩
        · exact const fun m => stops_fail _
      case union ts =>
        obtain ⟨n, hn⟩ := bound_list
          (fun n t => ∀ m, n ≤ m → ∀ l, l < L → EndsOn len l (memberSem fo we re (interp ro fo we re lax m) t r))
          (fun t n m h hp m' hm' => hp m' (by omega)) ts (fun t _ => by
            unfold memberSem
            split
            · exact low t none
            · rename_i rs
              split
              · rename_i j r' _
                split
                · exact ⟨0, fun m _ l _ => stops_nullExit⟩
                · obtain ⟨n, hn⟩ := low t (some r')
                  exact ⟨n, fun m hm l hl => stops_member _ _ (hn m hm l hl)⟩
              · split
                · rename_i j r' _
                  split
                  · exact ⟨0, fun m _ l _ => stops_nullExit⟩
                  · obtain ⟨n, hn⟩ := low t (some r')
                    exact ⟨n, fun m hm l hl => stops_member _ _ (hn m hm l hl)⟩
                · exact ⟨0, fun m _ l _ => stops_fail _⟩
            · rename_i r' _
              split
              · split
                · exact ⟨0, fun m _ l _ => stops_fail _⟩
                · exact low t (some r')
              · exact ⟨0, fun m _ l _ => stops_fail _⟩)
        refine ⟨n, fun m hm => stops_read_lt hs.long fun l hl v => ?_⟩
        unfold Sem.pick
        split
        · exact stops_fail _
        · rename_i t ht
          have hmem : t ∈ ts := by
            unfold atIndex at ht
            split at ht
            · exact List.mem_of_getElem? ht
            · cases ht
          exact hn t hmem m hm l hl
      case ref q => exact absurd rfl (hw q)
    -- references, by rank
    have refs : ∀ ρ q, rank q ≤ ρ → ∀ r, ∃ n, ∀ m, n ≤ m → EndsOn len L (interp ro fo we re lax m (.ref q) r) := by
      intro ρ
      induction ρ using Nat.strongRecOn with
      | ind ρ ihρ =>
        intro q hq
        refine lift _ fun r => ?_
        have hdef : ∀ wd, we.find q = some wd → ∀ rd, ∃ n, ∀ m, n ≤ m →
            EndsOn len L (defSem ro fo we re (interp ro fo we re lax m) wd rd) := by
          intro wd hd rd
          have hrec : ∀ wfs, wd.kind = .record wfs → ∀ reader, ∃ n, ∀ m, n ≤ m →
              EndsOn len L (recordSem fo we re (interp ro fo we re lax m) wfs reader) := by
            intro wfs hk reader
            obtain ⟨n, hn⟩ := bound_list
              (fun n (f : Field) => ∀ m, n ≤ m → EndsOn len L (interp ro fo we re lax m f.ty
                ((reader.bind fun rfs => fieldByName rfs f.name).map fun x : Nat × Field => x.2.ty)))
              (fun t n m h hp m' hm' => hp m' (by omega)) wfs (fun f hfs => by
                by_cases hr : ∃ q', f.ty = .ref q'
                · obtain ⟨q', hq'⟩ := hr
                  have := hrank q wd wfs hd hk f hfs q' hq'
                  rw [hq']
                  exact ihρ (rank q') (by omega) q' (Nat.le_refl _) _
                · exact flat f.ty (fun q' h => hr ⟨q', h⟩) _)
            exact ⟨n, fun m hm => stops_noFlag (stops_seq (eats_fields hs fo we re (hE m) _ _)
              (stops_fields hs fo we re (hE m) reader wfs fun f hf => hn f hf m hm) (stops_defaults hs fo _))⟩
          unfold defSem
          split
          · rename_i wfs hk _; exact hrec wfs hk none
          · rename_i wfs rfs hk _; exact hrec wfs hk (some rfs)
          · exact const fun m => stops_fixed hs fo _ _
          · exact const fun m => stops_fixed hs fo _ _
          · exact const fun m => stops_enum hs fo _ _
          · exact const fun m => stops_enum hs fo _ _
          · exact const fun m => stops_fail _
        have href : ∀ q', ∃ n, ∀ m, n ≤ m → EndsOn len L (refSem ro fo we re lax (interp ro fo we re lax m) q q') := by
          intro q'
          unfold refSem
          split
          · exact const fun m => stops_fail _
          · rename_i wd hd
            split
            · exact hdef wd hd none
            · split
              · exact const fun m => stops_fail _
              · rename_i rd _
                split
                · exact hdef wd hd (some rd)
                · exact const fun m => stops_fail _
        simp only [bodySem]
        split
        · exact href none
        · rename_i q'; exact href (some q')
        · exact const fun m => stops_fail _
    intro w r
    by_cases hr : ∃ q, w = .ref q
    · obtain ⟨q, rfl⟩ := hr; exact refs (rank q) q (Nat.le_refl _) r
    · exact flat w (fun q h => hr ⟨q, h⟩) r

/-- Decoding comes to an end, whatever the target. -/
theorem interp_total (hg : Grounded we) (w : Ty) (r : Option Ty) (rd : R) (t : T) :
    ∃ n, (∃ f rd' t', interp ro fo we re lax n w r rd t = .done (f, rd', t')) ∨
      (∃ e, interp ro fo we re lax n w r rd t = .err e) := by
  obtain ⟨n, hn⟩ := interp_ends hs fo we re lax hg (len rd) w r
  refine ⟨n, ?_⟩
  have := hn n (Nat.le_refl _) rd t (Nat.le_refl _)
  cases h : interp ro fo we re lax n w r rd t with
  | timeout => exact absurd h this
  | err e => exact .inr ⟨e, rfl⟩
  | done x => exact .inl ⟨x.1, x.2.1, x.2.2, rfl⟩
end
end Verif
