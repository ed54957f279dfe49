import Verif.Generic.View
import Verif.Props.WellCheck
import Verif.Props.Decode
/-
Properties C37 and C38: package v10/generic.

* `GDeserializes σ w r rd res`: `NewCodec(w, r)` and then `Deserialize` on the reader `rd` end
  with `res`: an error of either, a value and the rest of the input, or a panic.
* `goView env v t` (Spec/Generic): the generic Go value that shows the value `v` of the Go type
  generated for `t`: maps for records, slices for arrays, symbols for enums, nil for null. There
  is none if `v.nullInside`.
* `Enc`, `Repr`: `e` is an encoding of the datum `d`, and `d` is the datum that `v` stands for.
* `Exact w r d` (Spec/Generic): reading `d` involves no promotion and no default.
-/
namespace Verif.Props
open Verif
set_option linter.unusedVariables false

section
variable {R : Type} {σ : Setting R} {view : R → List Byte}

theorem generic_self {s : Schema} (hs : GWellFormed s) (hd : σ.ro.Delivers view) (hl : σ.lim < 2 ^ 63)
    {v : Val} (hv : HasTy s.env σ.lim v s.root) {d : Datum} {e : List Byte} (hr : Repr s.env v s.root d)
    (he : Enc s.env d s.root e) (hw : d.within σ.lim) {rd : R} {rest : List Byte} (hin : view rd = e ++ rest) :
    ∃ rd', GDeserializes σ s s rd (.of rd' (itemView s.env s.root v)) ∧ view rd' = rest := by
  obtain ⟨prog, hc⟩ := compile_self hs.self hs.closedRoot σ.ord
  exact goutcome_exact hs.suited hs.counted hd hc (hin ▸ reads_enc hl he hw rest)
    (resolve_self hs.self Datum.skippable σ.dv v s.root d hs.closedRoot hv hr) (exact_self hs.self v s.root d hs.closedRoot hv hr)

/-! ### C37 -/

/-- C37, except for nulls in arrays, in maps and at the root: every encoding of a datum decodes
to the generic value that represents it, and what follows is left unread. -/
theorem generic_decodes_partial {s : Schema} (hs : GWellFormed s) (hd : σ.ro.Delivers view) (hl : σ.lim < 2 ^ 63)
    {v : Val} (hv : HasTy s.env σ.lim v s.root) (hn : v ≠ .nil) (hi : v.nullInside = false)
    {d : Datum} {e : List Byte} (hr : Repr s.env v s.root d) (he : Enc s.env d s.root e) (hw : d.within σ.lim)
    {rd : R} {rest : List Byte} (hin : view rd = e ++ rest) :
    ∃ g rd', goView s.env v s.root = some g ∧ GDeserializes σ s s rd (.value g rd') ∧ view rd' = rest := by
  obtain ⟨rd', h1, h2⟩ := generic_self hs hd hl hv hr he hw hin
  have := goView_isSome v s.root hv
  rw [hi, itemView_ne hn] at *
  obtain ⟨g, hg⟩ := Option.isSome_iff_exists.1 this
  rw [hg] at h1
  exact ⟨g, rd', hg, h1, h2⟩

/-- What is missing: on a null in an array, in a map or at the root, `Deserialize` panics,
whatever the encoding. -/
theorem generic_panics {s : Schema} (hs : GWellFormed s) (hd : σ.ro.Delivers view) (hl : σ.lim < 2 ^ 63)
    {v : Val} (hv : HasTy s.env σ.lim v s.root) (hn : v = .nil ∨ v.nullInside = true)
    {d : Datum} {e : List Byte} (hr : Repr s.env v s.root d) (he : Enc s.env d s.root e) (hw : d.within σ.lim)
    {rd : R} {rest : List Byte} (hin : view rd = e ++ rest) : GDeserializes σ s s rd .panics := by
  obtain ⟨rd', h1, h2⟩ := generic_self hs hd hl hv hr he hw hin
  have : itemView s.env s.root v = none := by
    by_cases h : v = .nil
    · subst h; rfl
    · rw [itemView_ne h]
      have := goView_isSome v s.root hv
      rw [hn.resolve_left h] at this
      simpa using this
  rw [this] at h1
  exact h1

/-- C37 for what generated code wrote. -/
theorem generic_reads_generated_partial {s : Schema} (hs : GWellFormed s) (hd : σ.ro.Delivers view) (hl : σ.lim < 2 ^ 63)
    (bw : Bool) (mo : MapOrder) {v : Val} (hv : HasTy s.env σ.lim v s.root) (hn : v ≠ .nil) (hi : v.nullInside = false)
    {rd : R} {rest : List Byte} (hin : view rd = wire s bw mo v ++ rest) :
    ∃ g rd', goView s.env v s.root = some g ∧ GDeserializes σ s s rd (.value g rd') ∧ view rd' = rest := by
  obtain ⟨d, e, h1, h2, h3, h4, h5⟩ := ser_enc s.env bw mo hl v s.root [] hv
  have hin : view rd = e ++ rest := by rw [hin]; congr 1
  exact generic_decodes_partial hs hd hl hv hn hi h1 h2 h3 hin

/-- The conditions that `WellFormed` does not contain: a check. -/
def countedB (s : Schema) : Bool :=
  s.env.all (fun x => match x.2.kind with
    | .enum ss _ => decide (ss.length ≤ 2 ^ 31)
    | .record fs => fs.all fun f => f.ty.short
    | _ => true) && s.root.short

theorem counted_of {s : Schema} (h : countedB s = true) : Counted s := by
  simp only [countedB, Bool.and_eq_true, List.all_eq_true] at h
  refine ⟨fun q d ss dd hq hk => ?_, fun q d fs f hq hk hf => ?_, h.2⟩
  · have := h.1 _ (Env.find_mem hq)
    simp only [hk, decide_eq_true_eq] at this
    exact this
  · have := h.1 _ (Env.find_mem hq)
    simp only [hk, List.all_eq_true] at this
    exact this f hf

theorem sample_generic : GWellFormed sample := sample_wellFormed.generic (counted_of (by decide +kernel))

/-- The generic form of `leafVal`. -/
def leafView : GVal := .record [("value".toList, .long 5), ("name".toList, .string (txt "b")),
  ("color".toList, .symbol "RED".toList), ("id".toList, .bytes [1, 2, 3, 4]), ("tags".toList, .list []), ("attrs".toList, .map []),
  ("next".toList, .nil), ("alt".toList, .int 3)]
/-- The generic form of `sampleVal`. -/
def sampleView : GVal := .record [("value".toList, .long (BitVec.ofInt 64 (-70))), ("name".toList, .string (txt "a")),
  ("color".toList, .symbol "GREEN".toList), ("id".toList, .bytes [0, 255, 7, 9]),
  ("tags".toList, .list [.string (txt "x"), .string (txt "yz")]), ("attrs".toList, .map [(txt "k", .int 1), (txt "m", .int 2)]),
  ("next".toList, leafView), ("alt".toList, .string (txt "q"))]

/-- A list of two nodes, written by generated code. -/
example : ∃ rd', GDeserializes (demo false) sample sample [wire sample true .rev sampleVal ++ [1], [2, 3]]
    (.value sampleView rd') ∧ rd'.flatten = [1, 2, 3] := by
  obtain ⟨g, rd', h1, h2, h3⟩ := generic_reads_generated_partial sample_generic (demo_delivers false) (by decide) true .rev
    sampleVal_hasTy (by simp [sampleVal]) (by decide +kernel) (rest := [1, 2, 3])
    (rd := [wire sample true .rev sampleVal ++ [1], [2, 3]]) (by simp)
  have : goView sample.env sampleVal sample.root = some sampleView := by with_unfolding_all rfl
  rw [this] at h1
  cases h1
  exact ⟨rd', h2, h3⟩

/-- A schema without definitions. -/
def bare (t : Ty) : Schema := { env := [], root := t }

theorem bare_generic {t : Ty} (hc : t.Closed []) (ht : t.tidy = true) (hs : t.short = true) : GWellFormed (bare t) where
  names := by intro q q' d d' h; cases h
  sizes := by intro q d n h; cases h
  apart := by intro q d fs h; cases h
  symbols := by intro q d ss df h; cases h
  closedFields := by intro q d fs f h; cases h
  closedRoot := hc
  tidyFields := by intro q d fs f h; cases h
  tidyRoot := ht
  distinct := by intro q q' d d' fs fs' h; cases h
  aliases := by intro q d q1 q2 r1 r2 fs fs1 fs2 h; cases h
  counted := ⟨(by intro q d ss dd h; cases h), (by intro q d fs f h; cases h), hs⟩

theorem optional_closed : (Ty.union [.null, .int]).Closed [] := ⟨by simp, by decide +kernel, trivial, trivial, trivial⟩

/-- C37 fails: for the schema `["null","int"]` the datum null is the byte 0, and on it
`Deserialize` panics. -/
theorem generic_null_root_panics (hd : σ.ro.Delivers view) (hl : σ.lim < 2 ^ 63) {rd : R} {rest : List Byte}
    (hin : view rd = 0 :: rest) : GDeserializes σ (bare (.union [.null, .int])) (bare (.union [.null, .int])) rd .panics :=
  generic_panics (v := .nil) (d := .union 0 .null) (e := [0]) (bare_generic optional_closed rfl rfl) hd hl
    ⟨_, rfl, rfl, by decide⟩ (.inl rfl) ⟨_, 0, rfl, rfl, rfl⟩ ⟨_, _, [], rfl, rfl, ⟨rfl, rfl⟩, by decide +kernel⟩
    ⟨by decide, trivial⟩ hin

/-- C37 fails: for `{"type":"array","items":["null","int"]}`, on the array of one null. -/
theorem generic_null_item_panics (hd : σ.ro.Delivers view) (hl : σ.lim < 2 ^ 63) (h1 : 1 ≤ σ.lim) {rd : R} {rest : List Byte}
    (hin : view rd = 2 :: 0 :: 0 :: rest) :
    GDeserializes σ (bare (.array (.union [.null, .int]))) (bare (.array (.union [.null, .int]))) rd .panics :=
  generic_panics (v := .array [.nil]) (d := .array [.union 0 .null]) (e := [2, 0, 0])
    (s := bare (.array (.union [.null, .int]))) (bare_generic (t := .array (.union [.null, .int])) optional_closed rfl rfl) hd hl
    ⟨_, rfl, h1, ⟨_, rfl, rfl, by decide⟩, trivial⟩ (.inr rfl) ⟨_, _, rfl, ⟨_, _, rfl, ⟨_, 0, rfl, rfl, rfl⟩, rfl⟩, rfl⟩
    ⟨_, [[0]], rfl, ⟨_, _, rfl, ⟨_, _, [], rfl, rfl, ⟨rfl, rfl⟩, by decide +kernel⟩, rfl⟩, by
      have : ([2, 0, 0] : List Byte) = blockOf [[0]] := by decide +kernel
      rw [this]; exact blockOf_blocks _⟩
    ⟨h1, ⟨by decide, trivial⟩, trivial⟩ hin

/-- C37 fails: for `{"type":"map","values":["null","int"]}`, on the map of "k" to null. -/
theorem generic_null_entry_panics (hd : σ.ro.Delivers view) (hl : σ.lim < 2 ^ 63) (h1 : 1 ≤ σ.lim) {rd : R} {rest : List Byte}
    (hin : view rd = 2 :: 2 :: 0x6b :: 0 :: 0 :: rest) :
    GDeserializes σ (bare (.map (.union [.null, .int]))) (bare (.map (.union [.null, .int]))) rd .panics :=
  generic_panics (v := .map [(txt "k", .nil)]) (d := .map [(txt "k", .union 0 .null)]) (e := [2, 2, 0x6b, 0, 0])
    (s := bare (.map (.union [.null, .int]))) (bare_generic (t := .map (.union [.null, .int])) optional_closed rfl rfl) hd hl
    ⟨_, rfl, h1, by simp [Sorted], by decide, ⟨_, rfl, rfl, by decide⟩, trivial⟩ (.inr rfl)
    ⟨_, _, _, rfl, ⟨_, _, rfl, ⟨_, 0, rfl, rfl, rfl⟩, rfl⟩, .refl _, rfl⟩
    ⟨_, [[2, 0x6b, 0]], rfl, ⟨[0], [], by decide +kernel, ⟨_, _, [], rfl, rfl, ⟨rfl, rfl⟩, by decide +kernel⟩, rfl⟩, by
      have : ([2, 2, 0x6b, 0, 0] : List Byte) = blockOf [[2, 0x6b, 0]] := by decide +kernel
      rw [this]; exact blockOf_blocks _⟩
    ⟨h1, by decide, ⟨by decide, trivial⟩, trivial⟩ hin

/-! ### C38 -/

/-- The generic Go value belongs to the type `t` of the schema. -/
def OfType (env : Env) (lim : Nat) (g : GVal) (t : Ty) : Prop := ∃ v, HasTy env lim v t ∧ goView env v t = some g

/-- What `Deserialize` returns for a datum of the writer that the reader can read
(`resolve` has a value). For `showDatum` see Spec/Generic: the values of the *writer's* types, and
raw JSON values for the defaults. -/
theorem generic_shows {w r : Schema} (hs : GSuited w r) (hd : σ.ro.Delivers view) (hl : σ.lim < 2 ^ 63)
    {prog} (hc : compile σ.ord false w r = .ok prog) {d : Datum} {e : List Byte} (he : Enc w.env d w.root e)
    (hw : d.within σ.lim) {v : Val} (hv : resolve Datum.skippable σ.dv w.env r.env d w.root r.root = some v)
    {g : GVal} (hn : d.isNil = false) (hg : showDatum w.env r.env d w.root r.root = some g)
    {rd : R} {rest : List Byte} (hin : view rd = e ++ rest) :
    ∃ rd', GDeserializes σ w r rd (.value g rd') ∧ view rd' = rest := by
  obtain ⟨rd', h1, h2⟩ := goutcome_value hs hd hc (hin ▸ reads_enc hl he hw rest) (by rw [hv]; rfl)
  simp only [rootShow, hn, hg] at h1
  exact ⟨rd', h1, h2⟩

/-- C38, where reading involves no promotion and no default (`Exact`): the result is the generic
form of what code generated for the reader's schema returns, if that has one. -/
theorem generic_reader_types_partial {w r : Schema} (hs : GSuited w r) (hn : Counted r) (hd : σ.ro.Delivers view)
    (hl : σ.lim < 2 ^ 63) {prog} (hc : compile σ.ord false w r = .ok prog) {d : Datum} {e : List Byte}
    (he : Enc w.env d w.root e) (hw : d.within σ.lim) (hx : Exact w.env r.env d w.root r.root) {v : Val}
    (hv : resolve Datum.skippable σ.dv w.env r.env d w.root r.root = some v) (hnil : v ≠ .nil)
    {rd : R} {rest : List Byte} (hin : view rd = e ++ rest) :
    ∃ rd', GDeserializes σ w r rd (.of rd' (goView r.env v r.root)) ∧ view rd' = rest := by
  obtain ⟨rd', h1, h2⟩ := goutcome_exact hs hn hd hc (hin ▸ reads_enc hl he hw rest) hv hx
  rw [itemView_ne hnil] at h1
  exact ⟨rd', h1, h2⟩

/-- A writer, and a reader with other orders of fields and members that drops a field. -/
def shuffleW : Schema := one qR [{ name := "a".toList, ty := .int }, { name := "s".toList, ty := .string },
  { name := "b".toList, ty := .union [.null, .long] }]
def shuffleR : Schema := one qR [{ name := "b".toList, ty := .union [.long, .null] }, { name := "a".toList, ty := .int }]

theorem shuffle_suited : GSuited shuffleW shuffleR :=
  have hs := suited_of (w := shuffleW) (r := shuffleR) (by decide +kernel)
  { toSound := hs.toSound, fields := hs.fields, enums := (counted_of (by decide +kernel)).enums }

theorem shuffle_exact : Exact shuffleW.env shuffleR.env (.record [.int 5, .string (txt "x"), .union 1 (.long 9)])
    shuffleW.root shuffleR.root := by
  refine ⟨?_, rfl, trivial, ?_, trivial⟩
  · intro i rf hi
    match i, hi with
    | 0, hi => cases hi; exact ⟨{ name := "b".toList, ty := .union [.null, .long] }, by simp, rfl⟩
    | 1, hi => cases hi; exact ⟨{ name := "a".toList, ty := .int }, by simp, rfl⟩
    | _ + 2, hi => simp [Ty.kindIn] at hi
  · intro ts t h1 h2
    cases h1
    cases h2
    exact (rfl : readerOf shuffleW.env shuffleR.env .long .long = .long)

/-- The reader's order of fields and members. -/
example : ∃ rd', GDeserializes (demo false) shuffleW shuffleR [[10, 2, 0x78], [2, 18, 1]]
    (.value (.record [("b".toList, .long 9), ("a".toList, .int 5)]) rd') ∧ rd'.flatten = [1] := by
  obtain ⟨prog, hc⟩ := compiles_of (n := 8) (w := shuffleW) (r := shuffleR) (by decide +kernel)
  exact generic_reader_types_partial (σ := demo false) shuffle_suited (counted_of (by decide +kernel)) (demo_delivers false) (by decide) hc
    (d := .record [.int 5, .string (txt "x"), .union 1 (.long 9)]) (e := [10, 2, 0x78, 2, 18])
    (encode_enc (by decide +kernel)) (within_of (by decide +kernel)) shuffle_exact
    (v := .record [.union 0 (some (.long 9)), .int 5]) (by with_unfolding_all rfl) (by simp)
    (rd := [[10, 2, 0x78], [2, 18, 1]]) (rest := [1]) rfl

theorem bare_suited {w r : Ty} (hw : w.tidy = true) (hr : r.tidy = true) (hw' : w.nullInUnions = true)
    (hr' : r.nullInUnions = true) : GSuited (bare w) (bare r) where
  namesW := by intro q q' d d' h; cases h
  namesR := by intro q q' d d' h; cases h
  sizes := by intro q d n h; cases h
  tidyW := by intro q d fs f h; cases h
  tidyR := by intro q d fs f h; cases h
  rootW := hw
  rootR := hr
  nulls := nullsAgree_inUnions (by intro q d fs f h; cases h) (by intro q d fs f h; cases h) hw' (.inl hr')
    (by intro q d fs f h; cases h) hw (by intro q d fs f h; cases h) hr
  distinct := by intro q q' d d' fs fs' h; cases h
  one := by intro q d q1 q2 r1 r2 fs fs1 fs2 h; cases h
  fields := by intro q d fs h; cases h
  enums := by intro q d ss dd h; cases h

/-- C38 fails after promotion: an int read as a long gives a Go `int32`, which is not the type
of a long. -/
theorem generic_promotion_keeps_int32 :
    (∃ rd', GDeserializes (demo true) (bare .int) (bare .long) [[10]] (.value (.int 5) rd')) ∧
      ∀ lim, ¬OfType (bare .long).env lim (.int 5) (bare .long).root := by
  constructor
  · obtain ⟨prog, hc⟩ := compiles_of (n := 4) (w := bare .int) (r := bare .long) (by decide +kernel)
    obtain ⟨rd', h, _⟩ := generic_shows (σ := demo true) (bare_suited rfl rfl rfl rfl) (demo_delivers true) (by decide) hc
      (d := .int 5) (e := [10]) ⟨rfl, by decide +kernel⟩ trivial (v := .long 5) rfl rfl rfl (rd := [[10]]) (rest := []) rfl
    exact ⟨rd', h⟩
  · rintro lim ⟨v, h1, h2⟩
    cases v <;> first
      | (simp [goView] at h2; done)
      | (simp [HasTy, bare] at h1; done)
      | (rename_i o; cases o <;> simp [HasTy, bare] at h1; done)

/-- C38 fails for defaults: the reader's field `x`, an int with default 1, becomes what
`encoding/json` made of the default, a `float64`, which is not the type of an int. -/
theorem generic_default_is_raw_json :
    (∃ rd', GDeserializes (demo true) (one qR [{ name := "n".toList, ty := .int }])
        (one qR [{ name := "n".toList, ty := .int }, { name := "x".toList, ty := .int, dflt := some (.num 1) }]) [[10]]
        (.value (.record [("n".toList, .int 5), ("x".toList, .json (.num 1))]) rd')) ∧
      ∀ lim, ¬OfType (one qR [{ name := "n".toList, ty := .int }, { name := "x".toList, ty := .int, dflt := some (.num 1) }]).env lim
        (.record [("n".toList, .int 5), ("x".toList, .json (.num 1))]) (.ref qR) := by
  constructor
  rotate_left
  · rintro lim ⟨v, h1, h2⟩
    cases v with
    | record vs =>
      obtain ⟨q, df, fs, hq, hf, hk, hv⟩ := h1
      cases hq
      obtain ⟨-, rfl⟩ := one_find hf
      cases hk
      simp only [goView, hf] at h2
      match vs, hv with
      | [a, b], ⟨_, _, h3, ha, _, _, h4, hb, _⟩ =>
        cases h3
        cases h4
        have hb : ∃ x, b = .int x := by
          cases b <;> simp [HasTy] at hb
          · exact ⟨_, rfl⟩
          · rename_i o; cases o <;> simp [HasTy] at hb
        obtain ⟨x, rfl⟩ := hb
        simp only [goViewFields, goView] at h2
        split at h2 <;> simp at h2
        rename_i he
        rw [h2.2] at he
        simp at he
    | union t o => cases o <;> simp [HasTy] at h1
    | array vs => simp [HasTy] at h1
    | map vs => simp [HasTy] at h1
    | enum i =>
      obtain ⟨q, df, ss, dd, hq, hf, hk, _⟩ := h1
      obtain ⟨-, rfl⟩ := one_find hf
      cases hk
    | _ => simp [goView] at h2
  obtain ⟨prog, hc⟩ := compiles_of (n := 6) (w := one qR [{ name := "n".toList, ty := .int }])
    (r := one qR [{ name := "n".toList, ty := .int }, { name := "x".toList, ty := .int, dflt := some (.num 1) }]) (by decide +kernel)
  have hs := suited_of (w := one qR [{ name := "n".toList, ty := .int }])
    (r := one qR [{ name := "n".toList, ty := .int }, { name := "x".toList, ty := .int, dflt := some (.num 1) }]) (by decide +kernel)
  have hg : GSuited (one qR [{ name := "n".toList, ty := .int }])
      (one qR [{ name := "n".toList, ty := .int }, { name := "x".toList, ty := .int, dflt := some (.num 1) }]) :=
    { toSound := hs.toSound, fields := hs.fields, enums := (counted_of (by decide +kernel)).enums }
  obtain ⟨rd', h, _⟩ := generic_shows (σ := demo true) hg (demo_delivers true) (by decide) hc
    (d := .record [.int 5]) (e := [10]) (encode_enc (by decide +kernel)) (within_of (by decide +kernel))
    (v := .record [.int 5, .int 7]) (by with_unfolding_all rfl) rfl (g := .record [("n".toList, .int 5), ("x".toList, .json (.num 1))])
    (by with_unfolding_all rfl) (rd := [[10]]) (rest := []) rfl
  exact ⟨rd', h⟩
end
end Verif.Props
