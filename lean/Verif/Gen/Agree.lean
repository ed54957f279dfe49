import Verif.Gen.AgreeBase
set_option linter.unusedSimpArgs false
set_option linter.unusedVariables false
/-
Compiled programs (by way of `interp`) read the datum that is on the wire and make of it
what `resolve` says.
-/
namespace Verif
variable {R : Type}

/-- `readFull` gives as many bytes as asked for. -/
def FullReads (ro : ReaderOps R) : Prop :=
  ∀ r n bs r', ro.readFull r n = .ok (bs, r') → bs.length = n

/-- The names the built-in types have in Go. -/
def builtinNames : List Str :=
  ["Null", "Bool", "Int", "Long", "Float", "Double", "Bytes", "String"].map String.toList

/-- No definition has the Go name of a built-in type. -/
def PlainNames (env : Env) : Prop := ∀ q d, env.find q = some d → d.goName ∉ builtinNames

/-- The fields of a record have different names. -/
def FieldsOK (env : Env) : Prop :=
  ∀ q d fs, env.find q = some d → d.kind = .record fs → (fs.map (·.name)).Nodup

/-- Conditions on the definitions. -/
structure Fair (we re : Env) : Prop where
  sizes : SizesOK we
  tidyW : TidyFields we
  tidyR : TidyFields re
  plain : PlainNames re
  fields : FieldsOK re

/-- The type is a record. -/
def Ty.IsRecord (env : Env) (t : Ty) : Prop :=
  ∃ q d fs, t = .ref q ∧ env.find q = some d ∧ d.kind = .record fs

/-- The types belong together: the reader's can read the writer's, or they have the same
name; a record or union of the reader is never filled by mistake. -/
def Comp (we re : Env) (w r : Ty) : Prop :=
  w.readableBy we re r = true ∨ w.goName we = r.goName re ∨ r.IsRecord re ∨ w.isUnion = true ∨ r.isUnion = true

section
variable {T : Type} (ro : ReaderOps R) (lim : Nat) (fo : FieldOps T) (t : T) (we re : Env)

/-! ### Skipping -/

/-- What skipping a datum does: nothing to the target; an error if it has entries. -/
def SkipFits {α T : Type} (sk : α → Bool) (p : Out (α × R)) (i : Out (Bool × R × T)) (t : T) : Prop :=
  match p with
  | .timeout => True
  | .err _ => ∃ e, i = .err e
  | .done (a, rd') => (sk a = true → i = .done (false, rd', t)) ∧ (sk a = false → ∃ e, i = .err e)

theorem skip_blocks (hint : ∀ c, fo.hintSize t c = .error .panic) {α : Type} {p : R → Out (α × R)} {a : Sem R T} {n m : Nat} (h : n ≤ m) (rd : R) :
    SkipFits (fun (l : List α) => l.isEmpty) (parseBlocks ro lim p n true rd)
      (Sem.blocks ro fo a m rd t) t := by
  cases n with
  | zero => simp [parseBlocks, SkipFits]
  | succ n =>
    obtain ⟨m, rfl⟩ : ∃ k, m = k + 1 := ⟨m - 1, by omega⟩
    unfold parseBlocks Sem.blocks
    simp only [Sem.read]
    cases h1 : readLong ro rd with
    | error e => exact ⟨e, rfl⟩
    | ok x =>
      obtain ⟨c, r1⟩ := x
      simp only
      by_cases hc : c = 0
      · rw [if_pos hc, if_pos hc]
        simp [SkipFits, Sem.skip]
      · rw [if_neg hc, if_neg hc]
        have key : ∀ c : BitVec 64, c ≠ 0 → ∀ r1, SkipFits (fun (l : List α) => l.isEmpty) (parseBlocks.items ro lim p n true c r1)
            (Sem.seq (.act fun t => (fo).hintSize t c) (.seq (.rep a c.toNat) (Sem.blocks ro fo a m)) r1 t) t := by
          intro c hc r1
          have hi : Sem.seq (.act fun t => (fo).hintSize t c) (.seq (.rep a c.toNat) (Sem.blocks ro fo a m)) r1 t
              = (.err .panic : Out (Bool × R × T)) := by
            simp only [Sem.seq, Sem.act, hint]
          rw [hi]
          cases hp : parseBlocks.items ro lim p n true c r1 with
          | timeout => trivial
          | err e => exact ⟨_, rfl⟩
          | done y =>
            obtain ⟨l, rd'⟩ := y
            simp only [SkipFits]
            have : l ≠ [] := by
              unfold parseBlocks.items at hp
              split at hp
              · simp at hp
              · obtain ⟨x, hx, h2⟩ := Out.bind_done hp
                obtain ⟨y, hy, h3⟩ := Out.bind_done h2
                have hpos : c.toNat ≠ 0 := fun h => hc (BitVec.eq_of_toNat_eq (by simpa using h))
                obtain ⟨k, hk⟩ : ∃ k, c.toNat = k + 1 := ⟨c.toNat - 1, by omega⟩
                rw [hk] at hx
                unfold parseRep at hx
                obtain ⟨u, hu, h4⟩ := Out.bind_done hx
                obtain ⟨v, hv, h5⟩ := Out.bind_done h4
                simp only [Out.done.injEq] at h5 h3
                intro he
                rw [he] at h3
                subst h5
                simp at h3
            exact ⟨fun h => absurd (by simpa using h) this, fun _ => ⟨_, rfl⟩⟩
        split
        · exact key c hc r1
        · simp only [Sem.read]
          cases h2 : readLong ro r1 with
          | error e => exact ⟨e, rfl⟩
          | ok x =>
            obtain ⟨_, r2⟩ := x
            exact key (-c) (by simpa using hc) r2

/-- Skipping by one definition of `interp`. -/
def SkipOK (n : Nat) : Prop := ∀ (w : Ty) (m : Nat), 2 * n ≤ m → ∀ (rd : R),
  SkipFits Datum.skippable (parse ro lim we n w rd)
    (interp ro fo we re false m w none rd t) t

theorem skip_lift {α : Type} {g : α → Datum} (hg : ∀ a, (g a).skippable = true) {set : T → α → Except Err T}
    (rdr : R → Except Err (α × R)) (rd : R) (t : T) :
    SkipFits Datum.skippable (lift g (rdr rd)) (Sem.prim rdr set none rd t) t := by
  simp only [Sem.prim, Sem.read]
  cases rdr rd with
  | error e => exact ⟨e, rfl⟩
  | ok x =>
    obtain ⟨a, r⟩ := x
    simp [lift, SkipFits, hg, Sem.skip]

theorem skip_fields {n m : Nat} (hk : 2 * n ≤ m) (ih : SkipOK ro lim fo t we re n) :
    ∀ (wfs : List Field) (rd : R), SkipFits Datum.allSkippable (parseFields (parse ro lim we n) wfs rd)
      (fieldsSem fo we re (interp ro fo we re false m) none wfs rd t) t := by
  intro wfs
  induction wfs with
  | nil => intro rd; simp [parseFields, SkipFits, Datum.allSkippable, fieldsSem, Sem.skip]
  | cons w wfs ihf =>
    intro rd
    have h1 := ih w.ty m hk rd
    simp only [parseFields, fieldsSem, Option.bind, Sem.seq]
    cases hp : parse ro lim we n w.ty rd with
    | timeout => trivial
    | err e =>
      rw [hp] at h1
      obtain ⟨e', he⟩ := h1
      simp only [Out.bind, he]
      exact ⟨e', rfl⟩
    | done x =>
      obtain ⟨d, r1⟩ := x
      rw [hp] at h1
      simp only [SkipFits] at h1
      have h2 := ihf r1
      simp only [Out.bind]
      cases hs : d.skippable with
      | true =>
        rw [h1.1 hs]
        simp only
        cases hq : parseFields (parse ro lim we n) wfs r1 with
        | timeout => trivial
        | err e =>
          rw [hq] at h2
          obtain ⟨e', he⟩ := h2
          simp only [he]
          exact ⟨e', rfl⟩
        | done y =>
          obtain ⟨ds, r2⟩ := y
          rw [hq] at h2
          simp only [SkipFits] at h2 ⊢
          simp only [Datum.allSkippable, hs, Bool.true_and]
          constructor
          · intro hss
            rw [h2.1 hss]
            rfl
          · intro hss
            obtain ⟨e, he⟩ := h2.2 hss
            rw [he]
            exact ⟨e, rfl⟩
      | false =>
        obtain ⟨e, he⟩ := h1.2 hs
        rw [he]
        simp only
        cases hq : parseFields (parse ro lim we n) wfs r1 with
        | timeout => trivial
        | err e' => exact ⟨e, rfl⟩
        | done y =>
          simp only [SkipFits, Datum.allSkippable]
          simp only [hs, Bool.false_and]
          exact ⟨fun h => by simp at h, fun _ => ⟨e, rfl⟩⟩

/-- Skipping with targets on which `HintSize` panics. -/
theorem skip_agree_of (hint : ∀ c, fo.hintSize t c = .error .panic) (hz : SizesOK we) :
    ∀ n, SkipOK ro lim fo t we re n := by
  intro n
  induction n with
  | zero => intro w m _ rd; simp [parse, SkipFits]
  | succ n ih =>
    intro w m hm rd
    obtain ⟨m, rfl⟩ : ∃ k, m = k + 1 := ⟨m - 1, by omega⟩
    have hk : 2 * n ≤ m := by omega
    have hi : interp ro fo we re false (m + 1) w none = bodySem ro fo we re false m (interp ro fo we re false m) w none := by
      cases w <;> rfl
    rw [hi]
    cases w with
    | null => simp [parse, SkipFits, bodySem, Datum.skippable, Sem.skip]
    | bool => exact skip_lift (fun _ => rfl) _ _ _
    | int => exact skip_lift (fun _ => rfl) _ _ _
    | long => exact skip_lift (fun _ => rfl) _ _ _
    | float => exact skip_lift (fun _ => rfl) _ _ _
    | double => exact skip_lift (fun _ => rfl) _ _ _
    | bytes => exact skip_lift (fun _ => rfl) _ _ _
    | string => exact skip_lift (fun _ => rfl) _ _ _
    | array wi =>
      have h := skip_blocks ro lim fo t hint (p := parse ro lim we n wi) (a := interp ro fo we re false m wi none)
        (n := n) (m := m) (by omega) rd
      simp only [parse, bodySem]
      cases hp : parseBlocks ro lim (parse ro lim we n wi) n true rd with
      | timeout => trivial
      | err e => rw [hp] at h; exact h
      | done x => rw [hp] at h; exact h
    | map wi =>
      have h := skip_blocks ro lim fo t hint (p := parseEntry ro (parse ro lim we n wi))
        (a := .read (readString ro) fun _ => interp ro fo we re false m wi none)
        (n := n) (m := m) (by omega) rd
      simp only [parse, bodySem]
      cases hp : parseBlocks ro lim (parseEntry ro (parse ro lim we n wi)) n true rd with
      | timeout => trivial
      | err e => rw [hp] at h; exact h
      | done x => rw [hp] at h; exact h
    | union ts =>
      simp only [parse, bodySem, unionSem, Sem.read]
      cases h1 : readLong ro rd with
      | error e => exact ⟨e, rfl⟩
      | ok x =>
        obtain ⟨v, r1⟩ := x
        simp only
        cases ha : atIndex ts v with
        | none => exact ⟨_, rfl⟩
        | some t =>
          have h := ih t m hk r1
          simp only [Sem.pick, memberSem]
          cases hp : parse ro lim we n t r1 with
          | timeout => trivial
          | err e => rw [hp] at h; exact h
          | done x => rw [hp] at h; exact h
    | ref q =>
      simp only [parse, bodySem, refSem]
      cases hf : we.find q with
      | none => exact ⟨_, rfl⟩
      | some d =>
        simp only [parseDef, defSem, Option.map]
        cases hd : d.kind with
        | record wfs =>
          have h := skip_fields ro lim fo t we re hk ih wfs rd
          simp only [recordSem, Sem.noFlag, Sem.seq, defaultsSem, Sem.skip]
          cases hp : parseFields (parse ro lim we n) wfs rd with
          | timeout => trivial
          | err e =>
            rw [hp] at h
            obtain ⟨e', he⟩ := h
            simp only [he]
            exact ⟨e', rfl⟩
          | done x =>
            obtain ⟨ds, r1⟩ := x
            rw [hp] at h
            simp only [SkipFits, Out.bind, Datum.skippable] at h ⊢
            constructor
            · intro hs
              rw [h.1 hs]
            · intro hs
              obtain ⟨e, he⟩ := h.2 hs
              rw [he]
              exact ⟨e, rfl⟩
        | enum ss dflt =>
          simp only [enumSem, Sem.read]
          cases readLong ro rd with
          | error e => exact ⟨e, rfl⟩
          | ok x => simp [lift, SkipFits, Datum.skippable, Sem.skip]
        | fixed k =>
          simp only [fixedSem, doRead_fixed (hz q d k hf hd)]
          cases readFixed ro k rd with
          | error e => exact ⟨e, rfl⟩
          | ok x => simp [lift, SkipFits, Datum.skippable, mapOk]

/-- Skipping into a record of generated code. -/
theorem skip_agree (dv : Field → Val) (hz : SizesOK we) (n : Nat) (fs : List Field) (slots : List (Option Val)) :
    SkipOK ro lim (genOps re lim dv) (.record fs slots) we re n :=
  skip_agree_of ro lim _ _ we re (fun _ => rfl) hz n
end
end Verif
