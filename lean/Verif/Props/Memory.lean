import Verif.Gen.MemSim
import Verif.Props.Decode
/-
Property C97: what decoding returns is made of new objects.

The other theorems about decoding speak of targets that are written back into their parents when they
are left. In Go, targets are pointers into the value, arrays grow by `append`, maps and unions with a null
member are references, and two results could share an object. Here memory is explicit.

* `DeserializesIn σ grow w r rd h v rd' h'`: the generated function is called in memory `h`; it returns a nil
  error and a Go value that is the content `v` of a variable; afterwards memory is `h'`. `grow` is how much
  more room `append` makes.
* `VarShows h' x v fp`: what one sees following the references in `v` is the value `x`; the objects that it is
  made of are `fp`, each listed as often as it is used.
-/
namespace Verif.Props
open Verif
set_option linter.unusedVariables false

theorem extends_of {h h' : Mem} (hl : h.length ≤ h'.length) (hs : ∀ a, a < h.length → h'[a]? = h[a]?) : h'.Extends h := by
  refine ⟨h'.drop h.length, ?_⟩
  refine List.ext_getElem? fun i => ?_
  by_cases hi : i < h.length
  · rw [List.getElem?_append_left hi, hs i hi]
  · rw [List.getElem?_append_right (Nat.le_of_not_lt hi), List.getElem?_drop]
    congr 1
    omega

/-- A run of any program into a new variable. -/
theorem memory_run {R : Type} {ro : ReaderOps R} {re : Env} {lim : Nat} {dv : Field → Val} {grow : Nat → Nat} {prog : Program} {root : Ty}
    {h : Mem} {v0 : Var} {h0 : Mem} (hn : memNew re root h = (v0, h0)) (rd : R) :
    ∃ s, memTarget re root ⟨h0.length, []⟩ (h0 ++ [.var v0]) = .ok s ∧
      (∀ e, Evaluates ro (genOps re lim dv) prog rd (.new re root none) (.error e) ↔ Evaluates ro (memOps re lim dv grow) prog rd s (.error e)) ∧
      (∀ rd' t, Evaluates ro (genOps re lim dv) prog rd (.new re root none) (.ok (rd', t)) →
        ∃ s' v fp, Evaluates ro (memOps re lim dv grow) prog rd s (.ok (rd', s')) ∧ s'.2.read ⟨h0.length, []⟩ = some v ∧
          SlotShows s'.2 t.val v fp ∧ fp.Nodup ∧ (∀ a ∈ fp, h.length ≤ a) ∧ s'.2.Extends h) ∧
      ∀ rd' s', Evaluates ro (memOps re lim dv grow) prog rd s (.ok (rd', s')) →
        ∃ t, Evaluates ro (genOps re lim dv) prog rd (.new re root none) (.ok (rd', t)) := by
  obtain ⟨l, f, rfl, e1, e2, e3⟩ := new_shows hn
  have hq : h.length + l.length ∉ f := fun hm => by
    have := (e3 _ hm).2
    simp at this
  have hns : NewShows re ((h ++ l) ++ [.var v0]) none v0 f root := e1.frame (fun a ha => Mem.get_append (e3 a ha).2)
  have hr : Mem.read ((h ++ l) ++ [.var v0]) ⟨(h ++ l).length, []⟩ = some v0 := by
    rw [Mem.read_eq (p := ⟨(h ++ l).length, []⟩) Mem.get_new]
    rfl
  obtain ⟨S, h1, f1, fq, t1, t2, t3, t4, t5⟩ := target_sim hns hr (show (h ++ l).length ∉ f by simpa using hq) e2
  refine ⟨(S, h1), t1, ?_, ?_, ?_⟩
  · intro e
    constructor
    · rintro ⟨n, hN⟩
      refine ⟨n, ?_⟩
      have hsim := evalInner_sim (ro := ro) (re := re) (lim := lim) (dv := dv) (grow := grow) (p := prog) n 0 {} false rd S _ h1 f1 t2
      unfold evalProg at hN ⊢
      cases ha : evalInner ro (genOps re lim dv) prog n 0 {} false rd (.new re root none) <;>
        cases hb : evalInner ro (memOps re lim dv grow) prog n 0 {} false rd (S, h1) <;>
        rw [ha, hb] at hsim <;> rw [ha] at hN <;> first | (cases hN; done) | exact False.elim hsim | skip
      cases hN
      rw [show _ = _ from hsim]
    · rintro ⟨n, hN⟩
      refine ⟨n, ?_⟩
      have hsim := evalInner_sim (ro := ro) (re := re) (lim := lim) (dv := dv) (grow := grow) (p := prog) n 0 {} false rd S _ h1 f1 t2
      unfold evalProg at hN ⊢
      cases ha : evalInner ro (genOps re lim dv) prog n 0 {} false rd (.new re root none) <;>
        cases hb : evalInner ro (memOps re lim dv grow) prog n 0 {} false rd (S, h1) <;>
        rw [ha, hb] at hsim <;> rw [hb] at hN <;> first | (cases hN; done) | exact False.elim hsim | skip
      cases hN
      rw [show _ = _ from hsim]
  · rintro rd' t ⟨n, hN⟩
    have hsim := evalInner_sim (ro := ro) (re := re) (lim := lim) (dv := dv) (grow := grow) (p := prog) n 0 {} false rd S _ h1 f1 t2
    unfold evalProg at hN
    cases ha : evalInner ro (genOps re lim dv) prog n 0 {} false rd (.new re root none) with
    | timeout => rw [ha] at hN; cases hN
    | err e => rw [ha] at hN; cases hN
    | done a =>
      rw [ha] at hN hsim
      simp only [Out.done.injEq, Prod.mk.injEq] at hN
      obtain ⟨rfl, rfl⟩ := hN
      cases hb : evalInner ro (memOps re lim dv grow) prog n 0 {} false rd (S, h1) with
      | timeout => rw [hb] at hsim; exact False.elim hsim
      | err e => rw [hb] at hsim; exact False.elim hsim
      | done b =>
        rw [hb] at hsim
        obtain ⟨r1, r2, r3, r4, f2, r5, r6, r7⟩ := hsim
        obtain ⟨v, fq2, c1, c2, c3, c4, c5, c6⟩ := t3.close (Nat.lt_of_lt_of_le (by simp) t4.grows) t2 r6 r7 r5
        have hc := t4.trans c6 t5
        have hfr := From.trans t4.grows t5 c5
        have hlen : h.length ≤ ((h ++ l) ++ [MObj.var v0]).length := by simp
        refine ⟨b.t, v, fq2, ⟨n, ?_⟩, c1, c2, c3, ?_, ?_⟩
        · unfold evalProg
          rw [hb, r3]
        · intro x hx
          rcases hfr x hx with h' | h'
          · exact (e3 x h').1
          · omega
        · refine extends_of (Nat.le_trans hlen hc.grows) ?_
          intro x hx
          have hx1 : x < (h ++ l).length := by simp; omega
          rw [hc.same x (Nat.lt_of_lt_of_le hx hlen) (fun hm => by have := (e3 x hm).1; omega) (Nat.ne_of_lt hx1),
            Mem.get_append hx1, Mem.get_append hx]
  · rintro rd' s' ⟨n, hN⟩
    have hsim := evalInner_sim (ro := ro) (re := re) (lim := lim) (dv := dv) (grow := grow) (p := prog) n 0 {} false rd S _ h1 f1 t2
    unfold evalProg at hN
    cases hb : evalInner ro (memOps re lim dv grow) prog n 0 {} false rd (S, h1) with
    | timeout => rw [hb] at hN; cases hN
    | err e => rw [hb] at hN; cases hN
    | done b =>
      rw [hb] at hN hsim
      simp only [Out.done.injEq, Prod.mk.injEq] at hN
      obtain ⟨rfl, rfl⟩ := hN
      cases ha : evalInner ro (genOps re lim dv) prog n 0 {} false rd (.new re root none) with
      | timeout => rw [ha] at hsim; exact False.elim hsim
      | err e => rw [ha] at hsim; exact False.elim hsim
      | done a =>
        rw [ha] at hsim
        exact ⟨a.t, n, by unfold evalProg; rw [ha, ← hsim.2.2.1]⟩

section
variable {R : Type} {σ : Setting R} {w r : Schema}

/-- C97. A call that returns the value `x` does so in memory too, whatever is in memory and however `append` makes
room: the variable shows `x`, it is made of objects that did not exist before, none of which is used twice, and
the objects that did exist are as they were. -/
theorem returns_new_objects {rd rd' : R} {x : Val} (hd : Deserializes σ w r rd (.value x rd')) (grow : Nat → Nat) (h : Mem) :
    ∃ v h' fp, DeserializesIn σ grow w r rd h v rd' h' ∧ VarShows h' x v fp ∧ fp.Nodup ∧ (∀ a ∈ fp, h.length ≤ a) ∧ h'.Extends h := by
  cases hd with
  | value hc he hv =>
    cases hn : memNew r.env r.root h with
    | mk v0 h0 =>
      obtain ⟨s, h1, h2, h3, h4⟩ := memory_run (ro := σ.ro) (lim := σ.lim) (dv := σ.dv) (grow := grow) hn rd
      obtain ⟨s', v, fp, k1, k2, k3, k4, k5, k6⟩ := h3 _ _ he
      rw [hv] at k3
      exact ⟨v, s'.2, fp, ⟨_, v0, h0, s, s', hc, hn, h1, k1, k2, rfl⟩, k3, k4, k5, k6⟩

/-- C97, conversely. A call in memory that returns a nil error is one of those the other theorems speak of: it leaves the
input as they say, and if they give it the value `x`, then this is what its variable shows, with new objects. The
objects that existed before the call are as they were in any case. -/
theorem memory_outcome {grow : Nat → Nat} {rd rd' : R} {h h' : Mem} {v : Var} (hd : DeserializesIn σ grow w r rd h v rd' h') :
    h'.Extends h ∧
    ((∃ x fp, Deserializes σ w r rd (.value x rd') ∧ VarShows h' x v fp ∧ fp.Nodup ∧ ∀ a ∈ fp, h.length ≤ a) ∨
      Deserializes σ w r rd .junk) := by
  obtain ⟨prog, v0, h0, s, s', hc, hn, ht, he, hr, rfl⟩ := hd
  obtain ⟨s1, h1, h2, h3, h4⟩ := memory_run (ro := σ.ro) (lim := σ.lim) (dv := σ.dv) (grow := grow) (prog := prog) hn rd
  rw [ht] at h1
  cases h1
  obtain ⟨t, hg⟩ := h4 _ _ he
  obtain ⟨s2, v2, fp, k1, k2, k3, k4, k5, k6⟩ := h3 _ _ hg
  have hss : s2 = s' := by
    have := Evaluates.det k1 he
    cases this
    rfl
  subst hss
  rw [hr] at k2
  cases k2
  refine ⟨k6, ?_⟩
  cases hv : t.val with
  | none => exact .inr (.junk hc hg hv)
  | some x =>
    rw [hv] at k3
    exact .inl ⟨x, fp, .value hc hg hv, k3, k4, k5⟩

/-- Which calls return a nil error does not depend on memory. -/
theorem memory_returns_iff {grow : Nat → Nat} {rd : R} {h : Mem} :
    (∃ v rd' h', DeserializesIn σ grow w r rd h v rd' h') ↔
      (∃ x rd', Deserializes σ w r rd (.value x rd')) ∨ Deserializes σ w r rd .junk := by
  constructor
  · rintro ⟨v, rd', h', hd⟩
    rcases (memory_outcome hd).2 with ⟨x, fp, h1, _⟩ | h1
    · exact .inl ⟨x, rd', h1⟩
    · exact .inr h1
  · have go : ∀ {prog rd' t}, compile σ.ord false w r = .ok prog →
        Evaluates σ.ro (genOps r.env σ.lim σ.dv) prog rd (.new r.env r.root none) (.ok (rd', t)) →
        ∃ v rd' h', DeserializesIn σ grow w r rd h v rd' h' := by
      intro prog rd' t hc he
      cases hn : memNew r.env r.root h with
      | mk v0 h0 =>
        obtain ⟨s, h1, h2, h3, h4⟩ := memory_run (ro := σ.ro) (lim := σ.lim) (dv := σ.dv) (grow := grow) hn rd
        obtain ⟨s', v, fp, k1, k2, k3, k4, k5, k6⟩ := h3 _ _ he
        exact ⟨v, rd', s'.2, _, v0, h0, s, s', hc, hn, h1, k1, k2, rfl⟩
    rintro (⟨x, rd', hd⟩ | hd)
    · cases hd with
      | value hc he hv => exact go hc he
    · cases hd with
      | junk hc he hv => exact go hc he
end

/-- A value that a program got from a call: what it is, the content of the variable, and where the objects are
that came into being during the call: from `lo` on, below `hi`. -/
structure Held where
  val : Val
  var : Var
  lo : Nat
  hi : Nat

/-- What may happen to memory in a program that decodes: any number of calls of `Deserialize` functions, of any
types, one after the other; and, between them, changes that the program makes to values that it got, of which
nothing is known except that they leave alone what did not come into being with that value (new objects may come into
being). `hs` are the values that were returned and not changed since. -/
inductive Holding {R : Type} (σ : Setting R) (grow : Nat → Nat) : Mem → List Held → Prop
  | start (h : Mem) : Holding σ grow h []
  | call {h h' : Mem} {hs : List Held} {w r : Schema} {rd rd' : R} {x : Val} {v : Var} : Holding σ grow h hs →
      DeserializesIn σ grow w r rd h v rd' h' → Deserializes σ w r rd (.value x rd') →
      Holding σ grow h' (⟨x, v, h.length, h'.length⟩ :: hs)
  | change {h h' : Mem} {hs hs' : List Held} {y : Held} : Holding σ grow h (hs ++ y :: hs') → h.length ≤ h'.length →
      (∀ a, a < h.length → ¬ (y.lo ≤ a ∧ a < y.hi) → h'[a]? = h[a]?) → Holding σ grow h' (hs ++ hs')

/-- C97. In every such history, each value that was not changed since is still what it was when it was returned, and is
made of objects that came into being with it. No two of the values have an object in common. -/
theorem held_values_stay {R : Type} {σ : Setting R} {grow : Nat → Nat} {h : Mem} {hs : List Held} (hh : Holding σ grow h hs) :
    (∀ y ∈ hs, y.hi ≤ h.length ∧ ∃ fp, VarShows h y.val y.var fp ∧ fp.Nodup ∧ ∀ a ∈ fp, y.lo ≤ a ∧ a < y.hi) ∧
    hs.Pairwise (fun y z => y.hi ≤ z.lo ∨ z.hi ≤ y.lo) := by
  induction hh with
  | start h => exact ⟨fun y hy => (List.not_mem_nil hy).elim, List.Pairwise.nil⟩
  | @call h h' hs w r rd rd' x v hh hd hx ih =>
    obtain ⟨he, hv⟩ := memory_outcome hd
    obtain ⟨new, rfl⟩ := he
    refine ⟨?_, List.pairwise_cons.mpr ⟨fun y hy => .inr (ih.1 y hy).1, ih.2⟩⟩
    intro y hy
    rcases List.mem_cons.mp hy with rfl | hy
    · rcases hv with ⟨x', fp, h1, h2, h3, h4⟩ | h1
      · have := h1.det hx
        cases this
        exact ⟨Nat.le_refl _, fp, h2, h3, fun a ha => ⟨h4 a ha, VarShows.lt _ h2 a ha⟩⟩
      · have := h1.det hx
        cases this
    · obtain ⟨h1, fp, h2, h3, h4⟩ := ih.1 y hy
      refine ⟨Nat.le_trans h1 (by simp), fp, ?_, h3, h4⟩
      exact VarShows.frame y.val h2 (fun a ha => Mem.get_append (VarShows.lt y.val h2 a ha))
  | @change h h' hs hs' y hh hl hc ih =>
    have hp := List.pairwise_append.mp ih.2
    have hp2 := List.pairwise_cons.mp hp.2.1
    refine ⟨?_, List.pairwise_append.mpr ⟨hp.1, hp2.2, fun a ha b hb => hp.2.2 a ha b (List.mem_cons_of_mem _ hb)⟩⟩
    intro z hz
    have hz' : z ∈ hs ++ y :: hs' := by
      rcases List.mem_append.mp hz with h1 | h1
      · exact List.mem_append_left _ h1
      · exact List.mem_append_right _ (List.mem_cons_of_mem _ h1)
    have hdis : z.hi ≤ y.lo ∨ y.hi ≤ z.lo := by
      rcases List.mem_append.mp hz with h1 | h1
      · exact hp.2.2 z h1 y (List.mem_cons_self ..)
      · exact (hp2.1 z h1).symm
    obtain ⟨h1, fp, h2, h3, h4⟩ := ih.1 z hz'
    refine ⟨Nat.le_trans h1 hl, fp, VarShows.frame z.val h2 (fun a ha => hc a (VarShows.lt z.val h2 a ha) ?_), h3, h4⟩
    have := h4 a ha
    omega

/-- Two records are read from one input, in a memory that is not empty; then the program changes what it likes in the
second one. The first is a list of two nodes and is made of several objects. -/
example (grow : Nat → Nat) (h : Mem) : ∃ v1 h1 v2 h2 q1 q2 fp1 fp2,
    DeserializesIn (demo false) grow sample sample [wire sample true .rev sampleVal ++ wire sample true .id leafVal] h v1 q1 h1 ∧
    DeserializesIn (demo false) grow sample sample q1 h1 v2 q2 h2 ∧ 2 ≤ fp1.length ∧
    VarShows h2 sampleVal v1 fp1 ∧ VarShows h2 leafVal v2 fp2 ∧
    ∀ h3 : Mem, h2.length ≤ h3.length → (∀ a, a < h2.length → ¬ (h1.length ≤ a ∧ a < h2.length) → h3[a]? = h2[a]?) →
      ∃ fp, VarShows h3 sampleVal v1 fp := by
  obtain ⟨_, q1, d1, e1⟩ := roundtrip_partial (σ := demo false) sample_wellFormed (demo_delivers false) (by decide) true .rev sampleVal_hasTy
    (by simp [sampleVal]) (rest := wire sample true .id leafVal)
    (rd := [wire sample true .rev sampleVal ++ wire sample true .id leafVal]) (by simp)
  obtain ⟨_, q2, d2, e2⟩ := roundtrip_partial (σ := demo false) sample_wellFormed (demo_delivers false) (by decide) true .id leafVal_hasTy
    (by simp [leafVal]) (rest := []) (rd := q1) (by simpa using e1)
  obtain ⟨v1, h1, fp1, a1, a2, a3, a4, a5⟩ := returns_new_objects d1 grow h
  obtain ⟨v2, h2, fp2, b1, b2, b3, b4, b5⟩ := returns_new_objects d2 grow h1
  have H : Holding (demo false) grow h2 [⟨leafVal, v2, h1.length, h2.length⟩, ⟨sampleVal, v1, h.length, h1.length⟩] :=
    .call (.call (.start h) a1 d1) b1 d2
  refine ⟨v1, h1, v2, h2, q1, q2, fp1, fp2, a1, b1, ?_, ?_, b2, ?_⟩
  · have hn : ∀ {xs : List Val} {v : Var} {f : List Nat}, VarShows h1 (.array xs) v f → 1 ≤ f.length := by
      intro xs v f k
      rw [VarShows] at k
      obtain ⟨a, cs, fps, _, _, _, rfl⟩ := k
      simp
    have hm : ∀ {es : List (List Byte × Val)} {v : Var} {f : List Nat}, VarShows h1 (.map es) v f → 1 ≤ f.length := by
      intro xs v f k
      rw [VarShows] at k
      obtain ⟨a, cs, fps, _, _, _, rfl⟩ := k
      simp
    rw [sampleVal, VarShows] at a2
    obtain ⟨tag, vs, _, a2⟩ := a2
    rw [VarsShow] at a2
    obtain ⟨_, _, _, _, _, _, a2, rfl⟩ := a2
    rw [VarsShow] at a2
    obtain ⟨_, _, _, _, _, _, a2, rfl⟩ := a2
    rw [VarsShow] at a2
    obtain ⟨_, _, _, _, _, _, a2, rfl⟩ := a2
    rw [VarsShow] at a2
    obtain ⟨_, _, _, _, _, _, a2, rfl⟩ := a2
    rw [VarsShow] at a2
    obtain ⟨_, _, _, _, _, k1, a2, rfl⟩ := a2
    rw [VarsShow] at a2
    obtain ⟨_, _, _, _, _, k2, a2, rfl⟩ := a2
    have k1 := hn k1
    have k2 := hm k2
    simp
    omega
  · obtain ⟨l, rfl⟩ := b5
    exact VarShows.frame _ a2 (fun a ha => Mem.get_append (VarShows.lt _ a2 a ha))
  · intro h3 k1 k2
    obtain ⟨_, fp, k3, _⟩ := (held_values_stay (Holding.change (hs := []) (hs' := [⟨sampleVal, v1, h.length, h1.length⟩]) H k1 k2)).1
      ⟨sampleVal, v1, h.length, h1.length⟩ (by simp)
    exact ⟨fp, k3⟩
end Verif.Props
