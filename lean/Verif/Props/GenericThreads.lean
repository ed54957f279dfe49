import Verif.Generic.PlacesSim
import Verif.Gen.ThreadSim
import Verif.Props.Shared
/-
Property C100: goroutines may use codecs of package v10/generic at the same time.

* `GCall`: what is called: `Deserialize` of a codec for the schemas `w` and `r`, with the input; what of Go and of the environment
  the outcome may depend on (`Setting`); where the parsed schema `r` keeps the defaults of its fields; and fuel.
* `GRunning D h ts`: memory may be `h`, the calls in progress or ended may be `ts`, and the parsed schemas may keep their defaults in the
  objects `D`, after some history. In a history, schemas are parsed and calls are started at any time; the calls take their
  steps in any order; the rest of the program does what it likes to the objects that none of the calls has made and that are not
  in `D`, and, once it has the result of a call (`drop`), to those that this call has made.
* `GThread.mine`: the objects that came into being in steps of the call.
* `MadeOf (seen h) g v fp` (Spec/Heap): in memory, the variable `v` shows the value `g` and is made of the objects `fp`.
* `GDeserializes` (Generic/Decode): what a call does that is alone.
-/
namespace Verif.Props
open Verif
set_option linter.unusedVariables false

/-- A call of `Deserialize` of a codec. -/
structure GCall (R : Type) where
  σ : Setting R
  dflt : Field → HVal
  w : Schema
  r : Schema
  rd : R
  fuel : Nat

/-- A call, what is left to do of it, and the objects that it has made. -/
structure GThread (R : Type) where
  call : GCall R
  act : Todo GCell (R × Option HVal)
  mine : List Nat

/-- What may be in memory, and which calls may be in progress or ended. -/
inductive GRunning {R : Type} : (Nat → Prop) → GHeap → List (GThread R) → Prop
  /-- before the first call -/
  | start (h : GHeap) : GRunning (fun _ => False) h []
  /-- a schema has been parsed, in a goroutine's own memory: its defaults are in `D'` too -/
  | parse {D D' : Nat → Prop} {h : GHeap} {ts : List (GThread R)} : GRunning D h ts → (∀ a, D a → D' a) →
      (∀ a, D' a → a < h.length ∧ ∀ t ∈ ts, a ∉ t.mine) → GRunning D' h ts
  /-- a call of `Deserialize` of a codec, which has been made of parsed schemas -/
  | call {D : Nat → Prop} {h : GHeap} {ts : List (GThread R)} (c : GCall R) {prog : Program} : GRunning D h ts →
      compile c.σ.ord false c.w c.r = .ok prog → DefaultsAt c.r.env D h c.dflt →
      GRunning D h (⟨c, callG c.σ c.dflt c.r prog c.fuel c.rd, []⟩ :: ts)
  /-- one of the calls takes a step -/
  | step {D : Nat → Prop} {h h' : GHeap} {ts ts' : List (GThread R)} {c : GCall R} {X : Type} {f : GHeap → Except Err (X × GHeap)}
      {k : X → Todo GCell (R × Option HVal)} {mine : List Nat} {x : X} :
      GRunning D h (ts ++ ⟨c, .op f k, mine⟩ :: ts') → f h = .ok (x, h') →
      GRunning D h' (ts ++ ⟨c, k x, mine ++ List.range' h.length (h'.length - h.length)⟩ :: ts')
  /-- a step fails -/
  | fail {D : Nat → Prop} {h : GHeap} {ts ts' : List (GThread R)} {c : GCall R} {X : Type} {f : GHeap → Except Err (X × GHeap)}
      {k : X → Todo GCell (R × Option HVal)} {mine : List Nat} {e : Err} :
      GRunning D h (ts ++ ⟨c, .op f k, mine⟩ :: ts') → f h = .error e → GRunning D h (ts ++ ⟨c, .ret (.err e), mine⟩ :: ts')
  /-- the program has the result of a call, or has given up on it, and may change what it has made -/
  | drop {D : Nat → Prop} {h : GHeap} {ts ts' : List (GThread R)} {t : GThread R} : GRunning D h (ts ++ t :: ts') → GRunning D h (ts ++ ts')
  /-- the rest of the program does something -/
  | other {D : Nat → Prop} {h h' : GHeap} {ts : List (GThread R)} : GRunning D h ts → h.length ≤ h'.length →
      (∀ t ∈ ts, ∀ a ∈ t.mine, h'[a]? = h[a]?) → (∀ a, D a → h'[a]? = h[a]?) → GRunning D h' ts

/-- Every schema can be parsed: its defaults are put into new objects. -/
theorem parsed_defaults (r : Schema) (h : GHeap) : ∃ (X : List Obj) (dflt : Field → HVal),
    DefaultsAt r.env (fun a => h.length ≤ a ∧ a < (h ++ X.map GCell.obj).length) (h ++ X.map .obj) dflt := by
  obtain ⟨⟨X, hX⟩, h2⟩ := loadAll_made r.env.defaults (seen h)
  have hs : seen (h ++ X.map .obj) = (loadAll r.env.defaults (seen h)).2 := by
    rw [← hX, seen_append]
    congr 1
    simp only [seen, List.map_map]
    exact List.map_id'' (fun _ => rfl) X
  have hl : (h ++ X.map GCell.obj).length = (loadAll r.env.defaults (seen h)).2.length := by rw [← hs, seen_length]
  have hv : ∀ j ∈ r.env.defaults, ∃ v, (j, v) ∈ (loadAll r.env.defaults (seen h)).1 := fun j hj => loadAll_mem hj _
  have : Nonempty HVal := ⟨.ref 0⟩
  refine ⟨X, fun f => Classical.epsilon fun v => ∀ j, f.dflt = some j → (j, v) ∈ (loadAll r.env.defaults (seen h)).1, ?_⟩
  rintro fs ⟨q, d, hq, hk⟩ f hf j hj
  obtain ⟨v, hm⟩ := hv j (defaultsIn_env r.env q d fs hq hk f hf j hj)
  have hex : ∃ v, ∀ j, f.dflt = some j → (j, v) ∈ (loadAll r.env.defaults (seen h)).1 := ⟨v, fun j' hj' => by
    rw [hj] at hj'
    cases hj'
    exact hm⟩
  obtain ⟨fp, e1, e2⟩ := h2 j _ (Classical.epsilon_spec hex j hj)
  refine ⟨fp, by rw [hs]; exact e1, fun x hx => ?_⟩
  have := e2 x hx
  rw [seen_length] at this
  rw [hl]
  exact this

/-- The evaluation with targets as states. -/
def GCall.outcome {R : Type} (c : GCall R) (prog : Program) : Out (R × GTgt) :=
  evalProg c.σ.ro (gOps c.r.env c.σ.lim) prog c.fuel c.rd (.new c.r.env c.r.root)

/-- The objects `K` are those of defaults of the schema. -/
def KeptBy (env : Env) (h : GHeap) (dflt : Field → HVal) (K : Nat → Prop) : Prop :=
  ∀ x, K x → ∃ fs f j fp, FieldsOf env fs ∧ f ∈ fs ∧ f.dflt = some j ∧ JsonMadeOf (seen h) j (dflt f) fp ∧ x ∈ fp ∧ ∀ y ∈ fp, K y

/-- What is left to do of a call ends as it should. -/
def GThread.OK {R : Type} (D : Nat → Prop) (h : GHeap) (t : GThread R) : Prop :=
  (∀ a ∈ t.mine, a < h.length ∧ ¬ D a) ∧ ∃ prog K, compile t.call.σ.ord false t.call.w t.call.r = .ok prog ∧
    (∀ x, K x → D x) ∧ KeptBy t.call.r.env h t.call.dflt K ∧
    t.act.Sure K (ReturnsG K (t.call.outcome prog)) (fun e => t.call.outcome prog = .err e) (t.call.outcome prog = .timeout) h (· ∈ t.mine)

theorem GThread.OK.others {R : Type} {D : Nat → Prop} {h h' : GHeap} {t : GThread R} (ht : GThread.OK D h t) (ho : Spares (· ∈ t.mine) D h h') : GThread.OK D h' t := by
  obtain ⟨h1, prog, K, h2, h3, h4, h5⟩ := ht
  have ho' : Spares (· ∈ t.mine) K h h' := ⟨ho.grows, ho.mine, fun x hx => ho.kept x (h3 x hx)⟩
  refine ⟨fun a ha => ⟨Nat.lt_of_lt_of_le (h1 a ha).1 ho.grows, (h1 a ha).2⟩, prog, K, h2, h3, fun x hx => ?_, Todo.Sure.others ReturnsG.others h5 ho'⟩
  obtain ⟨fs, f, j, fp, e1, e2, e3, e4, e5, e6⟩ := h4 x hx
  exact ⟨fs, f, j, fp, e1, e2, e3, e4.same fun y hy => seen_same (ho'.kept y (e6 y hy)), e5, e6⟩

theorem grunning_ok {R : Type} {D : Nat → Prop} {h : GHeap} {ts : List (GThread R)} (hr : GRunning D h ts) :
    (∀ t ∈ ts, GThread.OK D h t) ∧ ts.Pairwise (fun t u => ∀ a ∈ t.mine, a ∉ u.mine) ∧ ∀ a, D a → a < h.length := by
  induction hr with
  | start h => exact ⟨fun t ht => (List.not_mem_nil ht).elim, List.Pairwise.nil, fun _ h => h.elim⟩
  | @parse D D' h ts hr h1 h2 ih =>
    refine ⟨fun t ht => ?_, ih.2.1, fun a ha => (h2 a ha).1⟩
    obtain ⟨g1, prog, K, g2, g3, g4⟩ := ih.1 t ht
    exact ⟨fun a ha => ⟨(g1 a ha).1, fun hd => (h2 a hd).2 t ht ha⟩, prog, K, g2, fun x hx => h1 x (g3 x hx), g4⟩
  | @call D h ts c prog hr hc hd ih =>
    refine ⟨fun t ht => ?_, List.pairwise_cons.mpr ⟨fun t _ a ha => (List.not_mem_nil ha).elim, ih.2.1⟩, ih.2.2⟩
    rcases List.mem_cons.mp ht with rfl | ht
    · let K : Nat → Prop := fun x => D x ∧ ∃ fs f j fp, FieldsOf c.r.env fs ∧ f ∈ fs ∧ f.dflt = some j ∧ JsonMadeOf (seen h) j (c.dflt f) fp ∧ x ∈ fp ∧ ∀ y ∈ fp, D y
      have hK : DefaultsAt c.r.env K h c.dflt := by
        intro fs hf f hm j hj
        obtain ⟨fp, e1, e2⟩ := hd fs hf f hm j hj
        exact ⟨fp, e1, fun x hx => ⟨e2 x hx, fs, f, j, fp, hf, hm, hj, e1, hx, e2⟩⟩
      refine ⟨fun a ha => (List.not_mem_nil ha).elim, prog, K, hc, fun x hx => hx.1, ?_, ?_⟩
      · rintro x ⟨_, fs, f, j, fp, e1, e2, e3, e4, e5, e6⟩
        exact ⟨fs, f, j, fp, e1, e2, e3, e4, e5, fun y hy => ⟨e6 y hy, fs, f, j, fp, e1, e2, e3, e4, hy, e6⟩⟩
      · have := callG_sure (σ := c.σ) (prog := prog) (n := c.fuel) (rd := c.rd) hK (fun x hx => ih.2.2 x hx.1) rfl
        have he : (fun x => x ∈ ([] : List Nat)) = fun _ => False := by funext x; simp
        simp only [he]
        exact this
    · exact ih.1 t ht
  | @step D h h' ts ts' c X f k mine x hr hf ih =>
    obtain ⟨h1, prog, K, h2, h3, h4, h5⟩ := ih.1 ⟨c, .op f k, mine⟩ (by simp)
    obtain ⟨g1, g2, g3⟩ := (h5 h .refl).2 x h' hf
    have hmem : ∀ a, a ∈ mine ++ List.range' h.length (h'.length - h.length) ↔ GrownG (· ∈ mine) h h' a := by
      intro a
      simp only [List.mem_append, List.mem_range'_1, GrownG]
      constructor
      · rintro (h | h)
        · exact .inl h
        · exact .inr (by omega)
      · rintro (h | h)
        · exact .inl h
        · exact .inr (by omega)
    have hp := List.pairwise_append.mp ih.2.1
    have hp2 := List.pairwise_cons.mp hp.2.1
    have hkept : ∀ a, D a → h'[a]? = h[a]? := fun a ha => g2 a (ih.2.2 a ha) (fun hm => (h1 a hm).2 ha)
    have hoth : ∀ t : GThread R, GThread.OK D h t → (∀ a ∈ t.mine, a ∉ mine) → Spares (· ∈ t.mine) D h h' :=
      fun t ht hd => ⟨g1, fun a ha => g2 a (ht.1 a ha).1 (hd a ha), hkept⟩
    have hnew : ∀ t : GThread R, GThread.OK D h t → (∀ a ∈ t.mine, a ∉ mine) → ∀ a ∈ t.mine, a ∉ mine ++ List.range' h.length (h'.length - h.length) := by
      intro t ht hd a ha hm
      rcases (hmem a).mp hm with h' | h'
      · exact hd a ha h'
      · have := (ht.1 a ha).1
        omega
    refine ⟨fun t ht => ?_, List.pairwise_append.mpr ⟨hp.1, List.pairwise_cons.mpr ⟨fun t ht a ha hm => ?_, hp2.2⟩, fun t ht u hu => ?_⟩,
      fun a ha => Nat.lt_of_lt_of_le (ih.2.2 a ha) g1⟩
    · rcases List.mem_append.mp ht with ht | ht
      · have hok := ih.1 t (by simp [ht])
        exact hok.others (hoth t hok (hp.2.2 t ht _ (List.mem_cons_self ..)))
      · rcases List.mem_cons.mp ht with rfl | ht
        · refine ⟨fun a ha => ?_, prog, K, h2, h3, fun x hx => ?_, ?_⟩
          · rcases (hmem a).mp ha with h' | h'
            · exact ⟨Nat.lt_of_lt_of_le (h1 a h').1 g1, (h1 a h').2⟩
            · exact ⟨h'.2, fun hd => by have := ih.2.2 a hd; omega⟩
          · obtain ⟨fs, f, j, fp, e1, e2, e3, e4, e5, e6⟩ := h4 x hx
            exact ⟨fs, f, j, fp, e1, e2, e3, e4.same fun y hy => seen_same (hkept y (h3 y (e6 y hy))), e5, e6⟩
          · have he : (fun a => a ∈ mine ++ List.range' h.length (h'.length - h.length)) = GrownG (· ∈ mine) h h' := by
              funext a
              exact propext (hmem a)
            simp only [he]
            exact g3
        · have hok := ih.1 t (by simp [ht])
          exact hok.others (hoth t hok (fun a ha hm => hp2.1 t ht a hm ha))
    · have hok := ih.1 t (by simp [ht])
      exact hnew t hok (fun a ha hm => hp2.1 t ht a hm ha) a hm ha
    · rcases List.mem_cons.mp hu with rfl | hu
      · exact hnew t (ih.1 t (by simp [ht])) (hp.2.2 t ht _ (List.mem_cons_self ..))
      · exact hp.2.2 t ht u (List.mem_cons_of_mem _ hu)
  | @fail D h ts ts' c X f k mine e hr hf ih =>
    obtain ⟨h1, prog, K, h2, h3, h4, h5⟩ := ih.1 ⟨c, .op f k, mine⟩ (by simp)
    have hp := List.pairwise_append.mp ih.2.1
    have hp2 := List.pairwise_cons.mp hp.2.1
    refine ⟨fun t ht => ?_, List.pairwise_append.mpr ⟨hp.1, List.pairwise_cons.mpr ⟨fun t ht => hp2.1 t ht, hp2.2⟩, fun t ht u hu => ?_⟩, ih.2.2⟩
    · rcases List.mem_append.mp ht with ht | ht
      · exact ih.1 t (by simp [ht])
      · rcases List.mem_cons.mp ht with rfl | ht
        · exact ⟨h1, prog, K, h2, h3, h4, (h5 h .refl).1 e hf⟩
        · exact ih.1 t (by simp [ht])
    · rcases List.mem_cons.mp hu with rfl | hu
      · exact hp.2.2 t ht ⟨c, .op f k, mine⟩ (List.mem_cons_self ..)
      · exact hp.2.2 t ht u (List.mem_cons_of_mem _ hu)
  | @drop D h ts ts' t hr ih =>
    have hp := List.pairwise_append.mp ih.2.1
    have hp2 := List.pairwise_cons.mp hp.2.1
    refine ⟨fun u hu => ih.1 u ?_, List.pairwise_append.mpr ⟨hp.1, hp2.2, fun a ha b hb => hp.2.2 a ha b (List.mem_cons_of_mem _ hb)⟩, ih.2.2⟩
    rcases List.mem_append.mp hu with h1 | h1
    · exact List.mem_append_left _ h1
    · exact List.mem_append_right _ (List.mem_cons_of_mem _ h1)
  | @other D h h' ts hr hl hs hd ih =>
    exact ⟨fun t ht => (ih.1 t ht).others ⟨hl, fun a ha => hs t ht a ha, hd⟩, ih.2.1, fun a ha => Nat.lt_of_lt_of_le (ih.2.2 a ha) hl⟩

section
variable {R : Type} {D : Nat → Prop} {h : GHeap} {ts : List (GThread R)}

/-- C100. In whatever order the steps of the calls were taken: a call that has returned a value and a nil error has returned what it returns when it is alone.
The value is made of objects that came into being in steps of this call, none of which is used twice, and of objects in which the parsed reader's schema keeps
defaults. -/
theorem concurrent_generic_value (hr : GRunning D h ts) {t : GThread R} (ht : t ∈ ts) {rd' : R} {v : HVal} (hd : t.act = .ret (.done (rd', some v))) :
    ∃ g fp, GDeserializes t.call.σ t.call.w t.call.r t.call.rd (.value g rd') ∧ MadeOf (seen h) g v fp ∧
      ∀ a ∈ fp, (a ∈ t.mine ∧ fp.count a = 1) ∨ (D a ∧ DefaultObject t.call.r.env h t.call.dflt a) := by
  obtain ⟨h1, prog, K, h2, h3, h4, h5⟩ := (grunning_ok hr).1 t ht
  rw [hd] at h5
  obtain ⟨tg, e1, g, fp, e2, e3, e4⟩ := h5
  refine ⟨g, fp, .value h2 ⟨t.call.fuel, e1⟩ e2, e3, fun a ha => ?_⟩
  rcases e4 a ha with h' | h'
  · obtain ⟨fs, f, j, jf, k1, k2, k3, k4, k5, _⟩ := h4 a h'
    exact .inr ⟨h3 a h', fs, f, j, jf, k1, k2, k3, k4, k5⟩
  · exact .inl h'

/-- C100. If all defaults of the reader's schema are scalars, the value is made only of objects that came into being in steps of this call, each used once. -/
theorem concurrent_generic_own (hr : GRunning D h ts) {t : GThread R} (ht : t ∈ ts) (hs : ScalarDefaults t.call.r) {rd' : R} {v : HVal}
    (hd : t.act = .ret (.done (rd', some v))) :
    ∃ g fp, GDeserializes t.call.σ t.call.w t.call.r t.call.rd (.value g rd') ∧ MadeOf (seen h) g v fp ∧ fp.Nodup ∧ ∀ a ∈ fp, a ∈ t.mine := by
  obtain ⟨g, fp, h1, h2, h3⟩ := concurrent_generic_value hr ht hd
  have hno : ∀ a, ¬ DefaultObject t.call.r.env h t.call.dflt a := by
    rintro a ⟨fs, f, j, jf, ⟨q, d, hq, hk⟩, hf, hj, hm, ha⟩
    have := hs j (defaultsIn_env t.call.r.env q d fs hq hk f hf j hj)
    cases j <;> simp_all [JsonMadeOf, Json.scalar]
  have h4 : ∀ a ∈ fp, a ∈ t.mine ∧ fp.count a = 1 := fun a ha => (h3 a ha).elim id (fun h => (hno a h.2).elim)
  refine ⟨g, fp, h1, h2, ?_, fun a ha => (h4 a ha).1⟩
  rw [List.nodup_iff_count]
  intro a
  by_cases ha : a ∈ fp
  · rw [(h4 a ha).2]
    exact Nat.le_refl _
  · rw [List.count_eq_zero.mpr ha]
    exact Nat.zero_le _

/-- C100. A call that has panicked in `Datum()` does so when it is alone. -/
theorem concurrent_generic_panics (hr : GRunning D h ts) {t : GThread R} (ht : t ∈ ts) {rd' : R} (hd : t.act = .ret (.done (rd', none))) :
    GDeserializes t.call.σ t.call.w t.call.r t.call.rd .panics := by
  obtain ⟨h1, prog, K, h2, h3, h4, h5⟩ := (grunning_ok hr).1 t ht
  rw [hd] at h5
  obtain ⟨tg, e1, e2⟩ := h5
  exact .panics h2 ⟨t.call.fuel, e1⟩ e2

/-- C100. A call that has returned an error does so when it is alone. -/
theorem concurrent_generic_error (hr : GRunning D h ts) {t : GThread R} (ht : t ∈ ts) {e : Err} (hd : t.act = .ret (.err e)) :
    GDeserializes t.call.σ t.call.w t.call.r t.call.rd .failed := by
  obtain ⟨h1, prog, K, h2, h3, h4, h5⟩ := (grunning_ok hr).1 t ht
  rw [hd] at h5
  exact .failed h2 ⟨t.call.fuel, h5⟩

/-- C100. No two calls have made the same object, and none has made one in which a schema keeps a default. -/
theorem concurrent_generic_apart (hr : GRunning D h ts) :
    ts.Pairwise (fun t u => ∀ a ∈ t.mine, a ∉ u.mine) ∧ ∀ t ∈ ts, ∀ a ∈ t.mine, ¬ D a :=
  ⟨(grunning_ok hr).2.1, fun t ht a ha => (((grunning_ok hr).1 t ht).1 a ha).2⟩

/-- C100. A call does not change the objects in which schemas keep their defaults, nor those that it has not made: neither those of other calls nor those of the program. -/
theorem concurrent_generic_spares {ts' : List (GThread R)} {c : GCall R} {X : Type} {f : GHeap → Except Err (X × GHeap)} {k : X → Todo GCell (R × Option HVal)}
    {mine : List Nat} (hr : GRunning D h (ts ++ ⟨c, .op f k, mine⟩ :: ts')) {x : X} {h' : GHeap} (hf : f h = .ok (x, h')) :
    h.length ≤ h'.length ∧ (∀ a, a < h.length → a ∉ mine → h'[a]? = h[a]?) ∧ ∀ a, D a → h'[a]? = h[a]? := by
  have hok := grunning_ok hr
  obtain ⟨h1, prog, K, h2, h3, h4, h5⟩ := hok.1 ⟨c, .op f k, mine⟩ (by simp)
  obtain ⟨g1, g2, g3⟩ := (h5 h .refl).2 x h' hf
  exact ⟨g1, g2, fun a ha => g2 a (hok.2.2 a ha) (fun hm => (h1 a hm).2 ha)⟩

/-- C100. A call that alone returns the value `g` returns `g` in every history: given enough fuel, whenever it has ended, it has returned
what is left of the input and a value that shows `g`. -/
theorem concurrent_generic_returns {σ : Setting R} {w r : Schema} {rd rd' : R} {g : GVal} (hd : GDeserializes σ w r rd (.value g rd')) :
    ∃ n, ∀ {D : Nat → Prop} {h : GHeap} {ts : List (GThread R)}, GRunning D h ts → ∀ t ∈ ts, ∀ dflt m, n ≤ m → t.call = ⟨σ, dflt, w, r, rd, m⟩ → ∀ o, t.act = .ret o →
      ∃ v fp, o = .done (rd', some v) ∧ MadeOf (seen h) g v fp ∧
        ∀ a ∈ fp, (a ∈ t.mine ∧ fp.count a = 1) ∨ (D a ∧ DefaultObject r.env h dflt a) := by
  cases hd with
  | @value prog _ tg _ hc he hv =>
    obtain ⟨n, hn⟩ := he
    refine ⟨n, fun {D h ts} hr t ht dflt m hm htc o ho => ?_⟩
    obtain ⟨h1, prog', K, h2, h3, h4, h5⟩ := (grunning_ok hr).1 t ht
    rw [htc] at h2 h5
    rw [hc] at h2
    cases h2
    have hout : GCall.outcome ⟨σ, dflt, w, r, rd, m⟩ prog = .done (rd', tg) := evalProg_mono hn (by simp) hm
    rw [hout, ho] at h5
    cases o with
    | timeout => cases h5
    | err e => cases h5
    | done b =>
      obtain ⟨b1, b2⟩ := b
      obtain ⟨tg', e1, e2⟩ := h5
      simp only [Out.done.injEq, Prod.mk.injEq] at e1
      obtain ⟨rfl, rfl⟩ := e1
      cases b2 with
      | none => simp only at e2; rw [hv] at e2; cases e2
      | some v =>
        obtain ⟨g', fp, e2, e3, e4⟩ := e2
        rw [hv] at e2
        cases e2
        have hcd : t.call.r = r ∧ t.call.dflt = dflt := by rw [htc]; exact ⟨rfl, rfl⟩
        refine ⟨v, fp, rfl, e3, fun a ha => ?_⟩
        rcases e4 a ha with h' | h'
        · obtain ⟨fs, f, j, jf, k1, k2, k3, k4, k5, _⟩ := h4 a h'
          rw [hcd.1] at k1
          rw [hcd.2] at k4
          exact .inr ⟨h3 a h', fs, f, j, jf, k1, k2, k3, k4, k5⟩
        · exact .inl h'

/-- C100. A call that alone fails, fails in every history. -/
theorem concurrent_generic_fails {σ : Setting R} {w r : Schema} {rd : R} (hd : GDeserializes σ w r rd .failed) :
    ∃ n, ∀ {D : Nat → Prop} {h : GHeap} {ts : List (GThread R)}, GRunning D h ts → ∀ t ∈ ts, ∀ dflt m, n ≤ m → t.call = ⟨σ, dflt, w, r, rd, m⟩ → ∀ o, t.act = .ret o →
      ∃ e, o = .err e := by
  cases hd with
  | @failed prog e hc he =>
    obtain ⟨n, hn⟩ := he
    refine ⟨n, fun {D h ts} hr t ht dflt m hm htc o ho => ?_⟩
    obtain ⟨h1, prog', K, h2, h3, h4, h5⟩ := (grunning_ok hr).1 t ht
    rw [htc] at h2 h5
    rw [hc] at h2
    cases h2
    have hout : GCall.outcome ⟨σ, dflt, w, r, rd, m⟩ prog = .err e := evalProg_mono hn (by simp) hm
    rw [hout, ho] at h5
    cases o with
    | timeout => cases h5
    | err e => exact ⟨e, rfl⟩
    | done b =>
      obtain ⟨tg', e1, _⟩ := h5
      cases e1

/-- C100. No call waits for another: at any time it can be brought to its end with steps of its own. -/
theorem concurrent_generic_ends {ts' : List (GThread R)} {c : GCall R} : ∀ {a : Todo GCell (R × Option HVal)} {mine : List Nat} {h : GHeap},
    GRunning D h (ts ++ ⟨c, a, mine⟩ :: ts') → ∃ h' o mine', GRunning D h' (ts ++ ⟨c, .ret o, mine'⟩ :: ts')
  | .ret o, mine, h, hr => ⟨h, o, mine, hr⟩
  | .op f k, mine, h, hr => by
    cases hf : f h with
    | error e => exact ⟨h, _, mine, .fail hr hf⟩
    | ok y =>
      obtain ⟨x, h'⟩ := y
      exact concurrent_generic_ends (a := k x) (.step hr hf)
end

/-- Two goroutines use one codec at the same time, in a memory that is not empty, where the schema has been parsed. Its default for the field `m` is a map. The
first has made its datum when the second starts; the second ends before the first goes on. Each returns the record with the default. -/
example (h : GHeap) : ∃ (D : Nat → Prop) (h' : GHeap) (c1 c2 : GCall (List (List Byte))) (v1 v2 : HVal) (m1 m2 : List Nat) (q1 q2 : List (List Byte)),
    c1.rd = [[10]] ∧ c2.rd = [[10]] ∧ c1.dflt = c2.dflt ∧
    GRunning D h' [⟨c2, .ret (.done (q2, some v2)), m2⟩, ⟨c1, .ret (.done (q1, some v1)), m1⟩] ∧
    Shows (seen h') leakG v1 ∧ Shows (seen h') leakG v2 := by
  obtain ⟨rd', hd⟩ := leak_decodes
  obtain ⟨n, k⟩ := concurrent_generic_returns hd
  obtain ⟨prog, hc⟩ : ∃ prog, compile (demo true).ord false leakW leakR = .ok prog := by
    cases hd with
    | value hc _ _ => exact ⟨_, hc⟩
  obtain ⟨X, dflt, hX⟩ := parsed_defaults leakR h
  let c : GCall (List (List Byte)) := ⟨demo true, dflt, leakW, leakR, [[10]], n⟩
  have r0 : GRunning (R := List (List Byte)) (fun a => h.length ≤ a ∧ a < (h ++ X.map GCell.obj).length) (h ++ X.map .obj) [] :=
    .parse (.start _) (fun _ h => h.elim) (fun a ha => ⟨ha.2, fun t ht => (List.not_mem_nil ht).elim⟩)
  have r1 := GRunning.call c r0 hc hX
  have r2 := GRunning.step (ts := []) (ts' := []) r1 (show newG leakR.env leakR.root (h ++ X.map .obj) = .ok _ from rfl)
  have hX2 : DefaultsAt leakR.env (fun a => h.length ≤ a ∧ a < (h ++ X.map GCell.obj).length)
      ((h ++ X.map .obj) ++ [.datum (.new leakR.env leakR.root)]) dflt := hX.frame fun a ha => get_old ha.2
  have r3 := GRunning.call c r2 hc hX2
  obtain ⟨h2, o2, m2, r4⟩ := concurrent_generic_ends (ts := []) r3
  obtain ⟨h3, o1, m1', r5⟩ := concurrent_generic_ends (ts := [⟨c, .ret o2, m2⟩]) (ts' := []) r4
  obtain ⟨v1, fp1, rfl, s1, _⟩ := k r5 ⟨c, .ret o1, m1'⟩ (by simp) dflt n (Nat.le_refl _) rfl _ rfl
  obtain ⟨v2, fp2, rfl, s2, _⟩ := k r5 ⟨c, .ret o2, m2⟩ (by simp) dflt n (Nat.le_refl _) rfl _ rfl
  exact ⟨_, h3, c, c, v1, v2, m1', m2, rd', rd', rfl, rfl, rfl, r5, ⟨fp1, s1⟩, ⟨fp2, s2⟩⟩

/-- A codec whose schema has a scalar default: what it returns is made of its own objects. -/
example (h : GHeap) : ∃ (D : Nat → Prop) (h' : GHeap) (c : GCall (List (List Byte))) (v : HVal) (m fp : List Nat) (q : List (List Byte)),
    GRunning D h' [⟨c, .ret (.done (q, some v)), m⟩] ∧ ScalarDefaults c.r ∧ MadeOf (seen h') ownG v fp ∧ fp.Nodup ∧ ∀ a ∈ fp, a ∈ m := by
  obtain ⟨rd', hd⟩ := own_decodes
  obtain ⟨n, k⟩ := concurrent_generic_returns hd
  obtain ⟨prog, hc⟩ : ∃ prog, compile (demo true).ord false ownW ownR = .ok prog := by
    cases hd with
    | value hc _ _ => exact ⟨_, hc⟩
  obtain ⟨X, dflt, hX⟩ := parsed_defaults ownR h
  have r0 : GRunning (R := List (List Byte)) (fun a => h.length ≤ a ∧ a < (h ++ X.map GCell.obj).length) (h ++ X.map .obj) [] :=
    .parse (.start _) (fun _ h => h.elim) (fun a ha => ⟨ha.2, fun t ht => (List.not_mem_nil ht).elim⟩)
  have r1 := GRunning.call ⟨demo true, dflt, ownW, ownR, [[10, 2, 14, 0]], n⟩ r0 hc hX
  obtain ⟨h2, o, m, r2⟩ := concurrent_generic_ends (ts := []) r1
  obtain ⟨v, fp, rfl, s1, _⟩ := k r2 _ (List.mem_singleton.mpr rfl) dflt n (Nat.le_refl _) rfl _ rfl
  obtain ⟨g, fp', e1, e2, e3, e4⟩ := concurrent_generic_own r2 (List.mem_singleton.mpr rfl) own_scalar rfl
  have := e1.det hd
  cases this
  exact ⟨_, h2, _, v, m, fp', rd', r2, own_scalar, e2, e3, e4⟩
end Verif.Props
