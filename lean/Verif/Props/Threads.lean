import Verif.Gen.ThreadSim
import Verif.Props.Memory
/-
Property C98: goroutines that decode at the same time do not disturb each other.

* `DeserCall`: what is called: the schemas, the input, what of Go and of the environment the outcome may depend on
  (`Setting`, how `append` makes room), and fuel.
* `Running h ts`: memory may be `h` and the calls in progress or ended may be `ts`, after some history. In a history,
  calls are started at any time; the calls take their steps in any order; the rest of the program does
  what it likes to the objects that none of the calls has made, and, once it has the result of a call (`drop`), to
  those that this call has made.
* `Thread.mine`: the objects that came into being in steps of the call.
-/
namespace Verif.Props
open Verif
set_option linter.unusedVariables false

/-- A call of a `Deserialize` function. -/
structure DeserCall (R : Type) where
  σ : Setting R
  grow : Nat → Nat
  w : Schema
  r : Schema
  rd : R
  fuel : Nat

/-- A call, what is left to do of it, and the objects that it has made. -/
structure Thread (R : Type) where
  call : DeserCall R
  act : Todo MObj (R × Var)
  mine : List Nat

/-- What may be in memory, and which calls may be in progress or ended. -/
inductive Running {R : Type} : Mem → List (Thread R) → Prop
  /-- before the first call -/
  | start (h : Mem) : Running h []
  /-- a call of a function; the schemas are compiled in a goroutine's own memory -/
  | call {h : Mem} {ts : List (Thread R)} (c : DeserCall R) {prog : Program} : Running h ts → compile c.σ.ord false c.w c.r = .ok prog →
      Running h (⟨c, callA c.σ c.grow c.r prog c.fuel c.rd, []⟩ :: ts)
  /-- one of the calls takes a step -/
  | step {h h' : Mem} {ts ts' : List (Thread R)} {c : DeserCall R} {X : Type} {f : Mem → Except Err (X × Mem)} {k : X → Todo MObj (R × Var)} {mine : List Nat} {x : X} :
      Running h (ts ++ ⟨c, .op f k, mine⟩ :: ts') → f h = .ok (x, h') →
      Running h' (ts ++ ⟨c, k x, mine ++ List.range' h.length (h'.length - h.length)⟩ :: ts')
  /-- a step fails -/
  | fail {h : Mem} {ts ts' : List (Thread R)} {c : DeserCall R} {X : Type} {f : Mem → Except Err (X × Mem)} {k : X → Todo MObj (R × Var)} {mine : List Nat} {e : Err} :
      Running h (ts ++ ⟨c, .op f k, mine⟩ :: ts') → f h = .error e → Running h (ts ++ ⟨c, .ret (.err e), mine⟩ :: ts')
  /-- the program has the result of a call, or has given up on it, and may change what it has made -/
  | drop {h : Mem} {ts ts' : List (Thread R)} {t : Thread R} : Running h (ts ++ t :: ts') → Running h (ts ++ ts')
  /-- the rest of the program does something -/
  | other {h h' : Mem} {ts : List (Thread R)} : Running h ts → h.length ≤ h'.length → (∀ t ∈ ts, ∀ a ∈ t.mine, h'[a]? = h[a]?) → Running h' ts

/-- The steps of a call, taken with nobody in between, are the call of C97. -/
theorem alone_iff {R : Type} {σ : Setting R} {grow : Nat → Nat} {w r : Schema} {rd rd' : R} {h h' : Mem} {v : Var} :
    DeserializesIn σ grow w r rd h v rd' h' ↔
      ∃ prog n, compile σ.ord false w r = .ok prog ∧ (callA σ grow r prog n rd).run h = .done ((rd', v), h') := by
  constructor
  · rintro ⟨prog, v0, h0, ⟨S, h1⟩, s', hc, hn, ht, ⟨n, he⟩, hr, rfl⟩
    refine ⟨prog, n, hc, ?_⟩
    have hnew : newA r.env r.root h = .ok ((S, ⟨h0.length, []⟩), h1) := by simp only [newA, hn, ht]
    simp only [callA, Todo.run, hnew, Todo.run_bind]
    have hrun := evalA_run (ro := σ.ro) (memOps_inPlace r.env σ.lim σ.dv grow) (p := prog) n 0 {} false rd S h1
    unfold evalProg at he
    rw [← hrun] at he
    cases ha : (evalA σ.ro (memOps r.env σ.lim σ.dv grow) prog n 0 {} false rd S).run h1 with
    | timeout => rw [ha] at he; cases he
    | err e => rw [ha] at he; cases he
    | done a =>
      obtain ⟨a, h2⟩ := a
      rw [ha] at he
      simp only [Out.solo, Out.done.injEq, Prod.mk.injEq] at he
      obtain ⟨rfl, rfl⟩ := he
      simp only [lookA, hr]
  · rintro ⟨prog, n, hc, hrun⟩
    simp only [callA, Todo.run, newA] at hrun
    cases hn : memNew r.env r.root h with
    | mk v0 h0 =>
      rw [hn] at hrun
      simp only at hrun
      cases ht : memTarget r.env r.root ⟨h0.length, []⟩ (h0 ++ [.var v0]) with
      | error e => rw [ht] at hrun; cases hrun
      | ok s =>
        obtain ⟨S, h1⟩ := s
        rw [ht] at hrun
        simp only [Todo.run_bind] at hrun
        have hev := evalA_run (ro := σ.ro) (memOps_inPlace r.env σ.lim σ.dv grow) (p := prog) n 0 {} false rd S h1
        cases ha : (evalA σ.ro (memOps r.env σ.lim σ.dv grow) prog n 0 {} false rd S).run h1 with
        | timeout => rw [ha] at hrun; cases hrun
        | err e => rw [ha] at hrun; cases hrun
        | done a =>
          obtain ⟨a, h2⟩ := a
          rw [ha] at hrun hev
          simp only [Todo.run, lookA] at hrun
          cases hr : Mem.read h2 ⟨h0.length, []⟩ with
          | none => rw [hr] at hrun; cases hrun
          | some v' =>
            rw [hr] at hrun
            simp only [Out.done.injEq, Prod.mk.injEq] at hrun
            obtain ⟨⟨rfl, rfl⟩, rfl⟩ := hrun
            refine ⟨prog, v0, h0, (S, h1), (a.t, h2), hc, hn, ht, ⟨n, ?_⟩, hr, rfl⟩
            unfold evalProg
            rw [← hev]
            rfl

/-- The evaluation with targets as states. -/
def DeserCall.outcome {R : Type} (c : DeserCall R) (prog : Program) : Out (R × Tgt) :=
  evalProg c.σ.ro (genOps c.r.env c.σ.lim c.σ.dv) prog c.fuel c.rd (.new c.r.env c.r.root none)

/-- What is left to do of a call ends as it should. -/
def Thread.OK {R : Type} (h : Mem) (t : Thread R) : Prop :=
  (∀ a ∈ t.mine, a < h.length) ∧ ∃ prog, compile t.call.σ.ord false t.call.w t.call.r = .ok prog ∧
    t.act.Safe (Returns (t.call.outcome prog)) (fun e => t.call.outcome prog = .err e) (t.call.outcome prog = .timeout) h (· ∈ t.mine)

theorem Thread.OK.others {R : Type} {h h' : Mem} {t : Thread R} (ht : Thread.OK h t) (ho : Others (· ∈ t.mine) h h') : Thread.OK h' t := by
  obtain ⟨h1, prog, h2, h3⟩ := ht
  exact ⟨fun a ha => Nat.lt_of_lt_of_le (h1 a ha) ho.grows, prog, h2, Todo.Safe.others Returns.others h3 ho⟩

theorem running_ok {R : Type} {h : Mem} {ts : List (Thread R)} (hr : Running h ts) :
    (∀ t ∈ ts, Thread.OK h t) ∧ ts.Pairwise (fun t u => ∀ a ∈ t.mine, a ∉ u.mine) := by
  induction hr with
  | start h => exact ⟨fun t ht => (List.not_mem_nil ht).elim, List.Pairwise.nil⟩
  | @call h ts c prog hr hc ih =>
    refine ⟨fun t ht => ?_, List.pairwise_cons.mpr ⟨fun t _ a ha => (List.not_mem_nil ha).elim, ih.2⟩⟩
    rcases List.mem_cons.mp ht with rfl | ht
    · refine ⟨fun a ha => (List.not_mem_nil ha).elim, prog, hc, ?_⟩
      have := callA_safe (σ := c.σ) (grow := c.grow) (r := c.r) (prog := prog) (n := c.fuel) (rd := c.rd) rfl h
      have he : (fun x => x ∈ ([] : List Nat)) = fun _ => False := by funext x; simp
      simp only [he]
      exact this
    · exact ih.1 t ht
  | @step h h' ts ts' c X f k mine x hr hf ih =>
    obtain ⟨h1, prog, h2, h3⟩ := ih.1 ⟨c, .op f k, mine⟩ (by simp)
    obtain ⟨g1, g2, g3⟩ := (h3 h .refl).2 x h' hf
    have hmem : ∀ a, a ∈ mine ++ List.range' h.length (h'.length - h.length) ↔ Grown (· ∈ mine) h h' a := by
      intro a
      simp only [List.mem_append, List.mem_range'_1, Grown]
      constructor
      · rintro (h | h)
        · exact .inl h
        · exact .inr (by omega)
      · rintro (h | h)
        · exact .inl h
        · exact .inr (by omega)
    have hp := List.pairwise_append.mp ih.2
    have hp2 := List.pairwise_cons.mp hp.2.1
    have hoth : ∀ t : Thread R, Thread.OK h t → (∀ a ∈ t.mine, a ∉ mine) → Others (· ∈ t.mine) h h' :=
      fun t ht hd => ⟨g1, fun a ha => g2 a (ht.1 a ha) (hd a ha)⟩
    have hnew : ∀ t : Thread R, Thread.OK h t → (∀ a ∈ t.mine, a ∉ mine) → ∀ a ∈ t.mine, a ∉ mine ++ List.range' h.length (h'.length - h.length) := by
      intro t ht hd a ha hm
      rcases (hmem a).mp hm with h' | h'
      · exact hd a ha h'
      · have := ht.1 a ha
        omega
    refine ⟨fun t ht => ?_, List.pairwise_append.mpr ⟨hp.1, List.pairwise_cons.mpr ⟨fun t ht a ha hm => ?_, hp2.2⟩, fun t ht u hu => ?_⟩⟩
    · rcases List.mem_append.mp ht with ht | ht
      · have hok := ih.1 t (by simp [ht])
        exact hok.others (hoth t hok (hp.2.2 t ht _ (List.mem_cons_self ..)))
      · rcases List.mem_cons.mp ht with rfl | ht
        · refine ⟨fun a ha => ?_, prog, h2, ?_⟩
          · rcases (hmem a).mp ha with h' | h'
            · exact Nat.lt_of_lt_of_le (h1 a h') g1
            · exact h'.2
          · have he : (fun a => a ∈ mine ++ List.range' h.length (h'.length - h.length)) = Grown (· ∈ mine) h h' := by
              funext a
              exact propext (hmem a)
            simp only [he]
            exact g3
        · have hok := ih.1 t (by simp [ht])
          exact hok.others (hoth t hok (fun a ha hm => hp2.1 t ht a hm ha))
    · have hok := ih.1 t (by simp [ht])
      exact hnew t hok (fun a ha hm => hp2.1 t ht a hm ha) a hm ha
    · rcases List.mem_cons.mp hu with rfl | hu
      · exact hnew t (ih.1 t (by simp [ht])) (hp.2.2 t ht _ (List.mem_cons_self ..))
      · exact hp.2.2 t ht u (List.mem_cons_of_mem _ hu)
  | @fail h ts ts' c X f k mine e hr hf ih =>
    obtain ⟨h1, prog, h2, h3⟩ := ih.1 ⟨c, .op f k, mine⟩ (by simp)
    have hp := List.pairwise_append.mp ih.2
    have hp2 := List.pairwise_cons.mp hp.2.1
    refine ⟨fun t ht => ?_, List.pairwise_append.mpr ⟨hp.1, List.pairwise_cons.mpr ⟨fun t ht => hp2.1 t ht, hp2.2⟩, fun t ht u hu => ?_⟩⟩
    · rcases List.mem_append.mp ht with ht | ht
      · exact ih.1 t (by simp [ht])
      · rcases List.mem_cons.mp ht with rfl | ht
        · exact ⟨h1, prog, h2, (h3 h .refl).1 e hf⟩
        · exact ih.1 t (by simp [ht])
    · rcases List.mem_cons.mp hu with rfl | hu
      · exact hp.2.2 t ht ⟨c, .op f k, mine⟩ (List.mem_cons_self ..)
      · exact hp.2.2 t ht u (List.mem_cons_of_mem _ hu)
  | @drop h ts ts' t hr ih =>
    have hp := List.pairwise_append.mp ih.2
    have hp2 := List.pairwise_cons.mp hp.2.1
    refine ⟨fun u hu => ih.1 u ?_, List.pairwise_append.mpr ⟨hp.1, hp2.2, fun a ha b hb => hp.2.2 a ha b (List.mem_cons_of_mem _ hb)⟩⟩
    rcases List.mem_append.mp hu with h1 | h1
    · exact List.mem_append_left _ h1
    · exact List.mem_append_right _ (List.mem_cons_of_mem _ h1)
  | @other h h' ts hr hl hs ih =>
    exact ⟨fun t ht => (ih.1 t ht).others ⟨hl, fun a ha => hs t ht a ha⟩, ih.2⟩

section
variable {R : Type} {h : Mem} {ts : List (Thread R)}

/-- C98. In whatever order the steps of the calls were taken: a call that has returned a nil error has returned what it returns
when it is alone (or, alone, it would return a value that the model does not describe); the variable that it returned shows it,
and is made of objects that came into being in steps of this call, none of which is used twice. -/
theorem concurrent_value (hr : Running h ts) {t : Thread R} (ht : t ∈ ts) {rd' : R} {v : Var} (hd : t.act = .ret (.done (rd', v))) :
    (∃ x fp, Deserializes t.call.σ t.call.w t.call.r t.call.rd (.value x rd') ∧ VarShows h x v fp ∧ fp.Nodup ∧ ∀ a ∈ fp, a ∈ t.mine) ∨
      Deserializes t.call.σ t.call.w t.call.r t.call.rd .junk := by
  obtain ⟨h1, prog, h2, h3⟩ := (running_ok hr).1 t ht
  rw [hd] at h3
  obtain ⟨tg, fp, e1, e2, e3, e4⟩ := h3
  have he : Evaluates t.call.σ.ro (genOps t.call.r.env t.call.σ.lim t.call.σ.dv) prog t.call.rd (.new t.call.r.env t.call.r.root none) (.ok (rd', tg)) :=
    ⟨t.call.fuel, e1⟩
  cases hv : tg.val with
  | none => exact .inr (.junk h2 he hv)
  | some x =>
    rw [hv] at e2
    exact .inl ⟨x, fp, .value h2 he hv, e2, e3, e4⟩

/-- C98. A call that has returned an error, or panicked, does so when it is alone. -/
theorem concurrent_error (hr : Running h ts) {t : Thread R} (ht : t ∈ ts) {e : Err} (hd : t.act = .ret (.err e)) :
    Deserializes t.call.σ t.call.w t.call.r t.call.rd .failed := by
  obtain ⟨h1, prog, h2, h3⟩ := (running_ok hr).1 t ht
  rw [hd] at h3
  exact .failed h2 ⟨t.call.fuel, h3⟩

/-- C98. No two calls have an object in common. -/
theorem concurrent_apart (hr : Running h ts) : ts.Pairwise (fun t u => ∀ a ∈ t.mine, a ∉ u.mine) := (running_ok hr).2

/-- C98. A call that alone returns the value `x` returns `x` in every history: given enough fuel, whenever it has ended, it has returned
what is left of the input and a variable that shows `x`. -/
theorem concurrent_returns {σ : Setting R} {w r : Schema} {rd rd' : R} {x : Val} (hd : Deserializes σ w r rd (.value x rd')) :
    ∃ n, ∀ {h : Mem} {ts : List (Thread R)}, Running h ts → ∀ t ∈ ts, ∀ grow m, n ≤ m → t.call = ⟨σ, grow, w, r, rd, m⟩ → ∀ o, t.act = .ret o →
      ∃ v fp, o = .done (rd', v) ∧ VarShows h x v fp ∧ fp.Nodup ∧ ∀ a ∈ fp, a ∈ t.mine := by
  cases hd with
  | @value prog _ tg _ hc he hv =>
    obtain ⟨n, hn⟩ := he
    refine ⟨n, fun {h ts} hr t ht grow m hm htc o ho => ?_⟩
    obtain ⟨h1, prog', h2, h3⟩ := (running_ok hr).1 t ht
    rw [htc] at h2 h3
    rw [hc] at h2
    cases h2
    have hout : DeserCall.outcome ⟨σ, grow, w, r, rd, m⟩ prog = .done (rd', tg) := evalProg_mono hn (by simp) hm
    rw [hout, ho] at h3
    cases o with
    | timeout => cases h3
    | err e => cases h3
    | done b =>
      obtain ⟨tg', fp, e1, e2, e3, e4⟩ := h3
      obtain ⟨b1, b2⟩ := b
      simp only [Out.done.injEq, Prod.mk.injEq] at e1
      obtain ⟨rfl, rfl⟩ := e1
      rw [hv] at e2
      exact ⟨b2, fp, rfl, e2, e3, e4⟩

/-- C98. A call that alone fails, fails in every history. -/
theorem concurrent_fails {σ : Setting R} {w r : Schema} {rd : R} (hd : Deserializes σ w r rd .failed) :
    ∃ n, ∀ {h : Mem} {ts : List (Thread R)}, Running h ts → ∀ t ∈ ts, ∀ grow m, n ≤ m → t.call = ⟨σ, grow, w, r, rd, m⟩ → ∀ o, t.act = .ret o →
      ∃ e, o = .err e := by
  cases hd with
  | @failed prog e hc he =>
    obtain ⟨n, hn⟩ := he
    refine ⟨n, fun {h ts} hr t ht grow m hm htc o ho => ?_⟩
    obtain ⟨h1, prog', h2, h3⟩ := (running_ok hr).1 t ht
    rw [htc] at h2 h3
    rw [hc] at h2
    cases h2
    have hout : DeserCall.outcome ⟨σ, grow, w, r, rd, m⟩ prog = .err e := evalProg_mono hn (by simp) hm
    rw [hout, ho] at h3
    cases o with
    | timeout => cases h3
    | err e => exact ⟨e, rfl⟩
    | done b =>
      obtain ⟨tg', fp, e1, _⟩ := h3
      cases e1

/-- C98. No call waits for another: at any time it can be brought to its end with steps of its own. -/
theorem concurrent_ends {ts' : List (Thread R)} {c : DeserCall R} : ∀ {a : Todo MObj (R × Var)} {mine : List Nat} {h : Mem}, Running h (ts ++ ⟨c, a, mine⟩ :: ts') →
    ∃ h' o mine', Running h' (ts ++ ⟨c, .ret o, mine'⟩ :: ts')
  | .ret o, mine, h, hr => ⟨h, o, mine, hr⟩
  | .op f k, mine, h, hr => by
    cases hf : f h with
    | error e => exact ⟨h, _, mine, .fail hr hf⟩
    | ok y =>
      obtain ⟨x, h'⟩ := y
      exact concurrent_ends (a := k x) (.step hr hf)
end

/-- Two goroutines decode at the same time, in a memory that is not empty. The first has made its variable when the second starts;
the second ends before the first goes on. Each returns the record that it was given. -/
example (grow : Nat → Nat) (h : Mem) : ∃ (h' : Mem) (c1 c2 : DeserCall (List (List Byte))) (v1 v2 : Var) (m1 m2 fp1 fp2 : List Nat) (q1 q2 : List (List Byte)),
    c1.rd = [wire sample true .rev sampleVal] ∧ c2.rd = [wire sample true .id leafVal] ∧
    Running h' [⟨c2, .ret (.done (q2, v2)), m2⟩, ⟨c1, .ret (.done (q1, v1)), m1⟩] ∧
    VarShows h' sampleVal v1 fp1 ∧ VarShows h' leafVal v2 fp2 := by
  obtain ⟨_, q1, d1, e1⟩ := roundtrip_partial (σ := demo false) sample_wellFormed (demo_delivers false) (by decide) true .rev sampleVal_hasTy
    (by simp [sampleVal]) (rest := []) (rd := [wire sample true .rev sampleVal]) (by simp)
  obtain ⟨_, q2, d2, e2⟩ := roundtrip_partial (σ := demo false) sample_wellFormed (demo_delivers false) (by decide) true .id leafVal_hasTy
    (by simp [leafVal]) (rest := []) (rd := [wire sample true .id leafVal]) (by simp)
  obtain ⟨n1, k1⟩ := concurrent_returns d1
  obtain ⟨n2, k2⟩ := concurrent_returns d2
  obtain ⟨prog, hc⟩ : ∃ prog, compile (demo false).ord false sample sample = .ok prog := by
    cases d1 with
    | value hc _ _ => exact ⟨_, hc⟩
  let c1 : DeserCall (List (List Byte)) := ⟨demo false, grow, sample, sample, [wire sample true .rev sampleVal], n1⟩
  let c2 : DeserCall (List (List Byte)) := ⟨demo false, grow, sample, sample, [wire sample true .id leafVal], n2⟩
  have r1 : Running h [⟨c1, callA c1.σ c1.grow c1.r prog c1.fuel c1.rd, []⟩] := .call c1 (.start h) hc
  have r2 : ∃ h' a m, Running h' [⟨c1, a, m⟩] := by
    cases hf : newA c1.r.env c1.r.root h with
    | error e => exact ⟨_, _, _, .fail (ts := []) r1 hf⟩
    | ok y => exact ⟨_, _, _, .step (ts := []) (x := y.1) (h' := y.2) r1 hf⟩
  obtain ⟨h1, a1, m1, r2⟩ := r2
  have r3 : Running h1 [⟨c2, callA c2.σ c2.grow c2.r prog c2.fuel c2.rd, []⟩, ⟨c1, a1, m1⟩] := .call c2 r2 hc
  obtain ⟨h2, o2, m2, r4⟩ := concurrent_ends (ts := []) r3
  obtain ⟨h3, o1, m1', r5⟩ := concurrent_ends (ts := [⟨c2, .ret o2, m2⟩]) (ts' := []) r4
  obtain ⟨v1, fp1, rfl, s1, _⟩ := k1 r5 ⟨c1, .ret o1, m1'⟩ (by simp) grow n1 (Nat.le_refl _) rfl _ rfl
  obtain ⟨v2, fp2, rfl, s2, _⟩ := k2 r5 ⟨c2, .ret o2, m2⟩ (by simp) grow n2 (Nat.le_refl _) rfl _ rfl
  exact ⟨h3, c1, c2, v1, v2, m1', m2, fp1, fp2, q1, q2, rfl, rfl, r5, s1, s2⟩
end Verif.Props
