import Verif.Generic.Fails
import Verif.Props.Generic
/-
Properties C81 and C82: package v10/generic on any input, also on inputs that are no encodings.

* `GDeserializes σ w r rd res`: `NewCodec(w, r)` and then `Deserialize` on the reader `rd` end
  with `res`: an error of either, a value and the rest of the input, or a panic.
* `Deserializes σ w r rd res`: the same for `DeserializeXFromSchema` of the code generated for `r`.
* `Suited` (Gen/Decode): the conditions of C22 on the two schemas; the reader's root is a record
  or a union. `GMatched` (Generic/Fails): the same without that; the roots match.
* `σ.lim` is the number of bytes Go can allocate at once. An input that is longer cannot be
  decoded from memory at all.
-/
namespace Verif.Props
open Verif
set_option linter.unusedVariables false

section
variable {R : Type} {σ : Setting R} {view : R → List Byte}

/-- An error of `NewCodec` or of `Deserialize`. -/
def GFails (σ : Setting R) (w r : Schema) (rd : R) : Prop :=
  GDeserializes σ w r rd .refused ∨ GDeserializes σ w r rd .failed

theorem _root_.Verif.Suited.matched {w r : Schema} (h : Suited w r) (he : EnumsOK r.env) : GMatched w r :=
  { toSound := h.toSound, fields := h.fields, enums := he, plain := h.plain, top := by
      rcases h.top with h | h
      · exact .inr (.inr (.inl h))
      · exact .inr (.inr (.inr (.inr h))) }

/-! ### C81 -/

/-- C81: decoding into generic data ends, in one way. -/
theorem generic_ends {w r : Schema} (hs : GMatched w r) (hg : Grounded w.env) (hd : σ.ro.Delivers view)
    (hl : σ.lim < 2 ^ 63) (rd : R) (hin : (view rd).length ≤ σ.lim) :
    ∃ res, ∀ res', GDeserializes σ w r rd res' ↔ res' = res := by
  obtain ⟨res, h1, h2⟩ := goutcome_total hs hg hd hl rd hin
  exact ⟨res, fun res' => ⟨fun h => h.det h1, fun h => h ▸ h1⟩⟩

/-- C81: with the codec one gets an error exactly when one gets an error with generated code. -/
theorem generic_fails_alike {w r : Schema} (hs : Suited w r) (he : EnumsOK r.env) (hg : Grounded w.env)
    (hd : σ.ro.Delivers view) (hl : σ.lim < 2 ^ 63) (rd : R) (hin : (view rd).length ≤ σ.lim) :
    (GDeserializes σ w r rd .refused ↔ Deserializes σ w r rd .refused) ∧
    (GDeserializes σ w r rd .failed ↔ Deserializes σ w r rd .failed) := by
  obtain ⟨res, h1, h2⟩ := outcome_total hs hg hd rd
  obtain ⟨gres, g1, g2⟩ := goutcome_total (hs.matched he) hg hd hl rd hin
  have key : ∀ {a : Res R} {b : GRes R}, (gres = b ↔ res = a) → (GDeserializes σ w r rd b ↔ Deserializes σ w r rd a) :=
    fun h => ⟨fun x => (h.1 (g1.det x)) ▸ h1, fun x => (h.2 (h1.det x)) ▸ g1⟩
  have ofne : ∀ {rd' : R} {g : Option GVal}, GRes.of rd' g ≠ .refused ∧ GRes.of rd' g ≠ .failed := by
    intro rd' g; cases g <;> exact ⟨by simp [GRes.of], by simp [GRes.of]⟩
  rcases h2 with ⟨rfl, _, a1⟩ | ⟨_, d, v, rd', a1, a2, a3, rfl⟩ | ⟨_, d, z, a1, a2, a3, rfl⟩ | ⟨_, a1, a2, rfl⟩ <;>
  rcases g2 with ⟨rfl, _, b1⟩ | ⟨_, d', rd'', b1, b2, b3, rfl⟩ | ⟨_, d', z', b1, b2, b3, rfl⟩ | ⟨_, b1, b2, rfl⟩ <;>
  first
    | (rw [a1] at b1; cases b1; done)
    | (have := a2.det b2; cases this; done)
    | (have := a2.det b2; cases this; rw [a3] at b3; cases b3; done)
    | exact ⟨key ⟨fun x => absurd x ofne.1, fun x => by cases x⟩, key ⟨fun x => absurd x ofne.2, fun x => by cases x⟩⟩
    | exact ⟨key (by simp), key (by simp)⟩

/-- C81: where generated code returns a value, the codec returns one or panics; it reads as much
of the input. -/
theorem generic_reads_as_far {w r : Schema} (hs : Suited w r) (he : EnumsOK r.env) (hg : Grounded w.env)
    (hd : σ.ro.Delivers view) (hl : σ.lim < 2 ^ 63) {rd rd' : R} (hin : (view rd).length ≤ σ.lim) {v : Val}
    (h : Deserializes σ w r rd (.value v rd')) :
    (∃ g rd'', GDeserializes σ w r rd (.value g rd'') ∧ view rd'' = view rd') ∨ GDeserializes σ w r rd .panics := by
  obtain ⟨prog, d, v', h1, h2, h3, -⟩ := value_of hs hg hd h
  obtain ⟨rd'', h4, h5⟩ := goutcome_value (hs.matched he).toGSuited hd h1 h2 (by rw [h3]; rfl)
  cases h6 : rootShow w.env r.env d w.root r.root with
  | none => rw [h6] at h4; exact .inr h4
  | some g => rw [h6] at h4; exact .inl ⟨g, rd'', h4, h5⟩

/-- C81: where the codec returns a value, generated code returns one, and has read as much. -/
theorem generated_reads_as_far {w r : Schema} (hs : Suited w r) (he : EnumsOK r.env) (hg : Grounded w.env)
    (hd : σ.ro.Delivers view) (hl : σ.lim < 2 ^ 63) {rd rd' : R} (hin : (view rd).length ≤ σ.lim) {g : GVal}
    (h : GDeserializes σ w r rd (.value g rd')) :
    ∃ v rd'', Deserializes σ w r rd (.value v rd'') ∧ view rd'' = view rd' := by
  rcases goutcome_of (hs.matched he) hg hd hl hin h with ⟨h, _⟩ | ⟨prog, d, rd'', h1, h2, h3, h4⟩ | ⟨_, _, _, _, _, _, h⟩ | ⟨_, _, _, h⟩
  · cases h
  · obtain ⟨v, h3⟩ := Option.isSome_iff_exists.1 h3
    obtain ⟨rd3, h5, h6⟩ := outcome_value hs hd h1 h2 h3
    refine ⟨_, rd3, h5, ?_⟩
    cases hx : rootShow w.env r.env d w.root r.root with
    | none => rw [hx] at h4; cases h4
    | some g => rw [hx] at h4; cases h4; exact h6
  · cases h
  · cases h

theorem sample_enums : EnumsOK sampleR.env := (counted_of (by decide +kernel)).enums

/-- The conditions are met by a schema of a linked list and a reader that differs from it; and
both ends occur. -/
example (input : List (List Byte)) (hin : input.flatten.length ≤ 1000) :
    GDeserializes (demo true) sample sampleR input .failed ↔ Deserializes (demo true) sample sampleR input .failed :=
  (generic_fails_alike sample_suited sample_enums sample_wellFormed.grounded (demo_delivers true) (by decide) input hin).2

example : ∃ res, ∀ res', GDeserializes (demo true) sample sampleR [[1, 2], [3]] res' ↔ res' = res :=
  generic_ends (sample_suited.matched sample_enums) sample_wellFormed.grounded (demo_delivers true) (by decide) _ (by decide)

/-! ### C82 -/

/-- C82, cut off: a proper prefix of an encoding is an error. -/
theorem generic_truncated {w r : Schema} (hs : GMatched w r) (hg : Grounded w.env) (hd : σ.ro.Delivers view)
    (hb : σ.ro.byteReader = false) (hl : σ.lim < 2 ^ 63) {d : Datum} (hw : d.within σ.lim) {p q : List Byte}
    (he : Enc w.env d w.root (p ++ q)) (hq : q ≠ []) {rd : R} (hin : view rd = p) (hlen : p.length ≤ σ.lim) :
    GFails σ w r rd := by
  cases hc : compile σ.ord false w r with
  | error err => exact .inl (.refused hc)
  | ok prog =>
    have := prefix_unreadable hl hg he hw hq
    rw [← hin, ← hb] at this
    exact .inr (goutcome_unreadable hs hg hd hl hc (hin ▸ hlen) this)

example : GFails (demo false) sample sampleR [sampleBytes tags1 attrs1 |>.take 20] :=
  generic_truncated (sample_suited.matched sample_enums) sample_wellFormed.grounded (demo_delivers false) rfl (by decide) sampleDatum_within
    (p := (sampleBytes tags1 attrs1).take 20) (q := (sampleBytes tags1 attrs1).drop 20)
    (by rw [List.take_append_drop]; exact sample_enc tags1_blocks attrs1_blocks) (by decide) (by simp) (by decide)

/-- C82, unions: an index of a union that does not exist is an error. -/
theorem generic_bad_union_index {w r : Schema} (hs : GMatched w r) (hg : Grounded w.env) (hd : σ.ro.Delivers view)
    (hl : σ.lim < 2 ^ 63) {rd : R} (hlen : (view rd).length ≤ σ.lim)
    (hbad : BadIndex w.env σ.lim false w.root (view rd)) : GFails σ w r rd := by
  cases hc : compile σ.ord false w r with
  | error err => exact .inl (.refused hc)
  | ok prog =>
    obtain ⟨a, ha⟩ := reads_total σ.ro.byteReader σ.lim hg w.root (view rd)
    cases a with
    | none => exact .inr (goutcome_unreadable hs hg hd hl hc hlen ha)
    | some x => exact absurd (bad_unread hl hbad ha).1 (by simp)

example : GFails (demo true) sample sampleR [[10, 2, 0x62, 0, 1, 2, 3, 4, 0, 0, 0], [10, 1, 2, 3]] :=
  generic_bad_union_index (sample_suited.matched sample_enums) sample_wellFormed.grounded (demo_delivers true) (by decide)
    (by decide) (sample_bad_union false [1, 2, 3])

/-- C82, unions and enums, when the reader's schema is the writer's. -/
theorem generic_bad_index_partial {s : Schema} (hs : GWellFormed s) (hp : PlainNames s.env) (hg : Grounded s.env)
    (hd : σ.ro.Delivers view) (hl : σ.lim < 2 ^ 63) {rd : R} (hlen : (view rd).length ≤ σ.lim)
    (hbad : BadIndex s.env σ.lim true s.root (view rd)) : GDeserializes σ s s rd .failed := by
  have hm : GMatched s s := { toGSuited := hs.suited, plain := hp, top := .inr (.inl rfl) }
  obtain ⟨prog, hc⟩ := compile_self hs.self hs.closedRoot σ.ord
  obtain ⟨a, ha⟩ := reads_total σ.ro.byteReader σ.lim hg s.root (view rd)
  cases a with
  | none => exact goutcome_unreadable hm hg hd hl hc hlen ha
  | some x =>
    obtain ⟨d, z⟩ := x
    cases hres : resolve Datum.skippable σ.dv s.env s.env d s.root s.root with
    | none => exact goutcome_unresolved hm hg hd hl hc hlen ha hres
    | some v =>
      exact absurd (resolve_enumsIn s.env Datum.skippable σ.dv hs.self d s.root v hs.closedRoot hres)
        (bad_unread hl hbad ha).2

example : GDeserializes (demo true) sample sample [[10, 2, 0x62, 0, 1, 2, 3, 4, 0, 0, 0], [10, 1, 2, 3]] .failed :=
  generic_bad_index_partial sample_generic sample_wellFormed.plain sample_wellFormed.grounded (demo_delivers true) (by decide)
    (by decide) (sample_bad_union true [1, 2, 3])

/-- C82: a success is a success, with the same value, whatever follows. (For readers with
`ReadByte` something must be left over: see `bool_at_eof`.) -/
theorem generic_no_lookahead_partial {w r : Schema} (hs : GMatched w r) (hg : Grounded w.env) (hd : σ.ro.Delivers view)
    (hl : σ.lim < 2 ^ 63) {rd rd' : R} {g : GVal} (hlen : (view rd).length ≤ σ.lim)
    (h : GDeserializes σ w r rd (.value g rd')) (hb : σ.ro.byteReader = false ∨ view rd' ≠ [])
    {rd2 : R} {more : List Byte} (hm : view rd2 = view rd ++ more) :
    ∃ rd2', GDeserializes σ w r rd2 (.value g rd2') ∧ view rd2' = view rd' ++ more := by
  rcases goutcome_of hs hg hd hl hlen h with ⟨h, _⟩ | ⟨prog, d, rd'', h1, h2, h3, h4⟩ | ⟨_, _, _, _, _, _, h⟩ | ⟨_, _, _, h⟩
  · cases h
  · cases hx : rootShow w.env r.env d w.root r.root with
    | none => rw [hx] at h4; cases h4
    | some g' =>
      rw [hx] at h4; cases h4
      obtain ⟨c, h5, h6⟩ := reads_local h2 hb
      have h7 := h6 (view rd' ++ more)
      rw [← List.append_assoc, ← h5, ← hm] at h7
      obtain ⟨rd2', h8, h9⟩ := goutcome_value hs.toGSuited hd h1 h7 h3
      rw [hx] at h8
      exact ⟨rd2', h8, h9⟩
  · cases h
  · cases h

/-! ### Roots that do not match -/

/-- Why `GMatched` asks for matching roots: with a writer's schema `"string"` and a reader's
schema `"int"`, `NewCodec` succeeds, and `Deserialize` returns the string. -/
theorem generic_root_unchecked : (¬ CanRead (bare .string).env (bare .int).env .string .int) ∧
    ∃ rd', GDeserializes (demo true) (bare .string) (bare .int) [[4, 0x61], [0x62]] (.value (.string (txt "ab")) rd') := by
  refine ⟨fun h => by have := readable_iff.2 h; revert this; decide, ?_⟩
  obtain ⟨prog, hc⟩ := compiles_of (n := 4) (w := bare .string) (r := bare .int) (by decide +kernel)
  have hs : GSuited (bare .string) (bare .int) := bare_suited rfl rfl rfl rfl
  obtain ⟨main, st, h1, h2⟩ := compile_ok hc
  obtain ⟨hcol, hnn⟩ := hs.toSound.clean h1
  have h3 := (run_compiled (demo true).ro (gOps [] 1000) hs.namesW hs.namesR hs.sizes (gOps_defaultsCommute _ _) h1 hcol hnn h2
    4 [[4, 0x61], [0x62]] (.new [] .int)).1 _ _ _ rfl
  exact ⟨_, .value hc h3 rfl⟩

end
end Verif.Props
