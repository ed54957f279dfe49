import Verif.Gen.Agree
set_option linter.unusedSimpArgs false
set_option linter.unusedVariables false
/-
The blocks of arrays and maps.
-/
namespace Verif
variable {R α β : Type}

/-- Do something with every element. -/
def stepAll (step : α → Option β) : List α → Option (List β)
  | [] => some []
  | x :: xs => match step x with
    | none => none
    | some b => (stepAll step xs).map (b :: ·)

theorem stepAll_append (step : α → Option β) : ∀ (xs ys : List α), stepAll step (xs ++ ys) =
    match stepAll step xs with
    | none => none
    | some bs => (stepAll step ys).map (bs ++ ·) := by
  intro xs ys
  induction xs with
  | nil => simp [stepAll]
  | cons x xs ih =>
    simp only [List.cons_append, stepAll, ih]
    cases step x with
    | none => rfl
    | some b =>
      simp only
      cases stepAll step xs with
      | none => rfl
      | some bs => simp [Option.map_map]; rfl

theorem stepAll_length {step : α → Option β} : ∀ {xs : List α} {bs}, stepAll step xs = some bs → bs.length = xs.length := by
  intro xs
  induction xs with
  | nil => intro bs h; simp only [stepAll, Option.some.injEq] at h; subst h; rfl
  | cons x xs ih =>
    intro bs h
    unfold stepAll at h
    split at h
    · simp at h
    · rename_i b hb
      cases hx : stepAll step xs with
      | none => rw [hx] at h; simp at h
      | some cs =>
        rw [hx] at h
        simp only [Option.map_some, Option.some.injEq] at h
        subst h
        simp [ih hx]

theorem parseRep_length {p : R → Out (α × R)} : ∀ {k : Nat} {rd rd' : R} {xs : List α},
    parseRep p k rd = .done (xs, rd') → xs.length = k := by
  intro k
  induction k with
  | zero => intro rd rd' xs h; simp only [parseRep, Out.done.injEq, Prod.mk.injEq] at h; simp [← h.1]
  | succ k ih =>
    intro rd rd' xs h
    unfold parseRep at h
    obtain ⟨x, hx, h2⟩ := Out.bind_done h
    obtain ⟨y, hy, h3⟩ := Out.bind_done h2
    simp only [Out.done.injEq, Prod.mk.injEq] at h3
    rw [← h3.1]
    simp [ih hy]

/-- The program piece `i` leaves the target `S bs` for the results `bs` of what was
parsed. -/
def ListFits (st : List α → Option (List β)) (S : List β → Tgt) (p : Out (List α × R)) (i : Out (Bool × R × Tgt)) : Prop :=
  match p with
  | .timeout => True
  | .err _ => ∃ e, i = .err e
  | .done (xs, rd') => match st xs with
    | none => ∃ e, i = .err e
    | some bs => i = .done (false, rd', S bs)

/-- The same for one element appended to `bs`. -/
def StepFits (step : α → Option β) (S : List β → Tgt) (bs : List β) (p : Out (α × R)) (i : Out (Bool × R × Tgt)) : Prop :=
  match p with
  | .timeout => True
  | .err _ => ∃ e, i = .err e
  | .done (x, rd') => match step x with
    | none => ∃ e, i = .err e
    | some b => ∃ f, i = .done (f, rd', S (bs ++ [b]))

theorem rep_agree {p : R → Out (α × R)} {a : Sem R Tgt} {step : α → Option β} {S : List β → Tgt}
    (h : ∀ bs rd, StepFits step S bs (p rd) (a rd (S bs))) :
    ∀ (k : Nat) (rd : R) (bs : List β), ListFits (stepAll step) (fun cs => S (bs ++ cs)) (parseRep p k rd) (Sem.rep a k rd (S bs)) := by
  intro k
  induction k with
  | zero => intro rd bs; simp [parseRep, Sem.rep, ListFits, stepAll, Sem.skip]
  | succ k ih =>
    intro rd bs
    have h1 := h bs rd
    simp only [parseRep, Sem.rep, Sem.seq, Sem.noFlag]
    cases hp : p rd with
    | timeout => trivial
    | err e =>
      rw [hp] at h1
      obtain ⟨e', he⟩ := h1
      simp only [Out.bind, he]
      exact ⟨e', rfl⟩
    | done x =>
      obtain ⟨x, r1⟩ := x
      rw [hp] at h1
      simp only [StepFits] at h1
      simp only [Out.bind]
      cases hs : step x with
      | none =>
        rw [hs] at h1
        obtain ⟨e', he⟩ := h1
        simp only [he]
        cases hq : parseRep p k r1 with
        | timeout => trivial
        | err e => exact ⟨e', rfl⟩
        | done y => simp only [ListFits, stepAll, hs]; exact ⟨e', rfl⟩
      | some b =>
        rw [hs] at h1
        obtain ⟨f, he⟩ := h1
        simp only [he]
        have h2 := ih r1 (bs ++ [b])
        cases hq : parseRep p k r1 with
        | timeout => trivial
        | err e =>
          rw [hq] at h2
          obtain ⟨e', he'⟩ := h2
          rw [he']
          exact ⟨e', rfl⟩
        | done y =>
          obtain ⟨ys, r2⟩ := y
          rw [hq] at h2
          simp only [ListFits, stepAll, hs] at h2 ⊢
          cases hy : stepAll step ys with
          | none =>
            rw [hy] at h2
            obtain ⟨e', he'⟩ := h2
            rw [he']
            exact ⟨e', rfl⟩
          | some cs =>
            rw [hy] at h2
            simp only at h2
            rw [h2]
            simp

/-- The target when the items `bs` have been read: the initial one if there are none. -/
def stateOf (I : Tgt) (S : List β → Tgt) : List β → Tgt
  | [] => I
  | b :: bs => S (b :: bs)

theorem stateOf_ne {I : Tgt} {S : List β → Tgt} {bs : List β} (h : bs ≠ []) : stateOf I S bs = S bs := by
  cases bs with
  | nil => exact absurd rfl h
  | cons b bs => rfl

theorem blocks_agree {ro : ReaderOps R} {fo : FieldOps Tgt} {lim : Nat} {p : R → Out (α × R)} {a : Sem R Tgt}
    {step : α → Option β} {S : List β → Tgt} {I : Tgt}
    (h : ∀ bs rd, StepFits step S bs (p rd) (a rd (S bs)))
    (hI : ∀ c, fo.hintSize I c = if c.toInt < 0 ∨ (lim : Int) < c.toInt then .error .panic else .ok (S []))
    (hS : ∀ bs c, bs ≠ [] → fo.hintSize (S bs) c = .ok (S bs)) :
    ∀ (n m : Nat) (rd : R) (bs : List β), n ≤ m →
    ListFits (stepAll step) (fun cs => stateOf I S (bs ++ cs)) (parseBlocks ro lim p n bs.isEmpty rd)
      (Sem.blocks ro fo a m rd (stateOf I S bs)) := by
  intro n
  induction n with
  | zero => intro m rd bs _; simp [parseBlocks, ListFits]
  | succ n ih =>
    intro m rd bs hm
    obtain ⟨m, rfl⟩ : ∃ k, m = k + 1 := ⟨m - 1, by omega⟩
    unfold parseBlocks Sem.blocks
    simp only [Sem.read]
    cases h1 : readLong ro rd with
    | error e => exact ⟨e, rfl⟩
    | ok x =>
      obtain ⟨c, r1⟩ := x
      simp only
      by_cases hc : c = 0
      · rw [if_pos hc, if_pos hc]
        simp [ListFits, Sem.skip, stepAll]
      · rw [if_neg hc, if_neg hc]
        have key : ∀ c : BitVec 64, c ≠ 0 → ∀ r1, ListFits (stepAll step) (fun cs => stateOf I S (bs ++ cs))
            (parseBlocks.items ro lim p n bs.isEmpty c r1)
            (Sem.seq (.act fun t => fo.hintSize t c) (.seq (.rep a c.toNat) (Sem.blocks ro fo a m)) r1 (stateOf I S bs)) := by
          intro c hc r1
          have hpos : c.toNat ≠ 0 := fun h => hc (BitVec.eq_of_toNat_eq (by simpa using h))
          by_cases hbad : bs.isEmpty = true ∧ (c.toInt < 0 ∨ (lim : Int) < c.toInt)
          · have hb : bs = [] := by simpa using hbad.1
            subst hb
            simp only [parseBlocks.items, Sem.seq, Sem.act, stateOf, hI, hbad.2, if_true, hbad]
            simp only [ListFits]
            rw [if_pos (by simp [hbad.2])]
            exact ⟨_, rfl⟩
          · have hh : fo.hintSize (stateOf I S bs) c = .ok (S bs) := by
              cases bs with
              | nil =>
                have : ¬ (c.toInt < 0 ∨ (lim : Int) < c.toInt) := fun h => hbad ⟨rfl, h⟩
                simp only [stateOf, hI, this, if_false]
              | cons b bs => exact hS _ _ (by simp)
            simp only [parseBlocks.items, hbad, if_false, Sem.seq, Sem.act, hh]
            have h2 := rep_agree h c.toNat r1 bs
            cases hp : parseRep p c.toNat r1 with
            | timeout => trivial
            | err e =>
              rw [hp] at h2
              obtain ⟨e', he⟩ := h2
              simp only [Out.bind, he]
              exact ⟨e', rfl⟩
            | done x =>
              obtain ⟨xs, r2⟩ := x
              rw [hp] at h2
              simp only [ListFits, Out.bind] at h2 ⊢
              have hlen := parseRep_length hp
              cases hs : stepAll step xs with
              | none =>
                rw [hs] at h2
                obtain ⟨e', he⟩ := h2
                rw [he]
                simp only
                cases hq : parseBlocks ro lim p n false r2 with
                | timeout => trivial
                | err e => exact ⟨e', rfl⟩
                | done y => simp only [stepAll_append, hs]; exact ⟨e', rfl⟩
              | some cs =>
                rw [hs] at h2
                simp only at h2
                rw [h2]
                simp only
                have hcs : bs ++ cs ≠ [] := by
                  have := stepAll_length hs
                  intro he
                  rw [List.append_eq_nil_iff] at he
                  rw [he.2] at this
                  simp at this
                  omega
                have h3 := ih m r2 (bs ++ cs) (by omega)
                rw [stateOf_ne hcs] at h3
                have hemp : (bs ++ cs).isEmpty = false := by simpa using hcs
                rw [hemp] at h3
                cases hq : parseBlocks ro lim p n false r2 with
                | timeout => trivial
                | err e =>
                  rw [hq] at h3
                  obtain ⟨e', he⟩ := h3
                  rw [he]
                  exact ⟨e', rfl⟩
                | done y =>
                  obtain ⟨ys, r3⟩ := y
                  rw [hq] at h3
                  simp only [ListFits] at h3
                  simp only [stepAll_append, hs]
                  cases hy : stepAll step ys with
                  | none =>
                    rw [hy] at h3
                    obtain ⟨e', he⟩ := h3
                    rw [he]
                    exact ⟨e', rfl⟩
                  | some ds =>
                    rw [hy] at h3
                    simp only at h3
                    rw [h3]
                    simp
        split
        · exact key c hc r1
        · simp only [Sem.read]
          cases h2 : readLong ro r1 with
          | error e => exact ⟨e, rfl⟩
          | ok x =>
            obtain ⟨_, r2⟩ := x
            exact key (-c) (by simpa using hc) r2

end Verif
