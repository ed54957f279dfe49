import Verif.Props.Small
import Verif.Compiler.Refuse
import Verif.Gen.BoolFree
/-
Properties C08, C11-C22: decoding and serializing with generated code.

* `Deserializes σ w r rd res`: `DeserializeXFromSchema` on the reader `rd`, where `w` is the
  schema the data was written with and `r` the schema of X, ends with `res`; with `w = r` it
  is `DeserializeX`. `σ` is what else a call depends on, see `Setting`; `σ.ord` is the order in
  which Go iterates over maps.
* `serialize env bw mo v t`: what `Serialize` does with `v`: the bytes, and whether the error
  is nil. `mo` is the order in which Go iterates over the maps in `v`.
* `σ.ro.Delivers view`: the reader behaves as an `io.Reader` that delivers the bytes `view rd`.
* `HasTy env lim v t`: `v` is a well-formed value of the Go type for `t`.
* `WellFormed s`, `Suited w r`: conditions on schemas.
* Specifications: `Spec/Encoding` (`Enc`), `Spec/Resolve` (`resolve`), `Spec/BadIndex`.
-/
namespace Verif.Props
open Verif
set_option linter.unusedVariables false

section
variable {R : Type} {σ : Setting R} {view : R → List Byte}

/-- What `Serialize` writes. -/
abbrev wire (s : Schema) (bw : Bool) (mo : MapOrder) (v : Val) : List Byte :=
  (serialize s.env bw mo v s.root).1.bytes

/-- Decoding one value after the other from a stream. -/
inductive DecodesAll (σ : Setting R) (w r : Schema) : R → List Val → R → Prop
  | nil {rd} : DecodesAll σ w r rd [] rd
  | cons {rd rd' rd'' v vs} : Deserializes σ w r rd (.value v rd') → DecodesAll σ w r rd' vs rd'' →
      DecodesAll σ w r rd (v :: vs) rd''

/-- Decoding ends in an error: of the compiler or of `vm.Eval`. -/
def Fails (σ : Setting R) (w r : Schema) (rd : R) : Prop :=
  Deserializes σ w r rd .refused ∨ Deserializes σ w r rd .failed

/-! ### C11 -/

/-- C11, except for null at the root (see `root_null_not_restored`). -/
theorem roundtrip_partial {s : Schema} (hs : WellFormed s) (hd : σ.ro.Delivers view) (hl : σ.lim < 2 ^ 63)
    (bw : Bool) (mo : MapOrder) {v : Val} (hv : HasTy s.env σ.lim v s.root) (hn : v ≠ .nil)
    {rd : R} {rest : List Byte} (hin : view rd = wire s bw mo v ++ rest) :
    (serialize s.env bw mo v s.root).2 = true ∧
      ∃ rd', Deserializes σ s s rd (.value v rd') ∧ view rd' = rest := by
  obtain ⟨d, e, h1, h2, h3, h4, h5⟩ := ser_enc s.env bw mo hl v s.root [] hv
  refine ⟨h4, ?_⟩
  have hin : view rd = e ++ rest := by rw [hin]; congr 1
  obtain ⟨prog, hc⟩ := hs.compiles σ.ord
  have hr := resolve_self hs.self Datum.skippable σ.dv v s.root d hs.closedRoot hv h1
  obtain ⟨rd', h6, h7⟩ := outcome_value hs.suited hd hc (hin ▸ reads_enc hl h2 h3 rest) hr
  rw [rootVal_ne hn] at h6
  exact ⟨rd', h6, h7⟩

/-- The input may come in pieces and be followed by other data. -/
example : ∃ rd', Deserializes (demo false) sample sample [wire sample true .rev sampleVal ++ [1], [2, 3]]
    (.value sampleVal rd') ∧ rd'.flatten = [1, 2, 3] :=
  (roundtrip_partial sample_wellFormed (demo_delivers false) (by decide) true .rev sampleVal_hasTy
    (by simp [sampleVal]) (rest := [1, 2, 3]) (by simp)).2

/-- What is missing in `roundtrip_partial`: null as a value of the type at the root. It is
written, but what comes back is a union without a member, which cannot be written again. -/
theorem root_null_not_restored (hd : σ.ro.Delivers view) (hl : σ.lim < 2 ^ 63) (bw : Bool) (mo : MapOrder) :
    HasTy optInt.env σ.lim .nil optInt.root ∧
    (serialize optInt.env bw mo .nil optInt.root).2 = true ∧
    (∀ rd rest, view rd = wire optInt bw mo .nil ++ rest →
      ∃ rd', Deserializes σ optInt optInt rd (.value (.union 0 none) rd') ∧ view rd' = rest) ∧
    (serialize optInt.env bw mo (.union 0 none) optInt.root).2 = false := by
  have hv : HasTy optInt.env σ.lim .nil optInt.root := ⟨[.null, .int], rfl, rfl, by decide⟩
  obtain ⟨d, e, h1, h2, h3, h4, h5⟩ := ser_enc optInt.env bw mo hl .nil optInt.root [] hv
  refine ⟨hv, h4, fun rd rest hin => ?_, rfl⟩
  have hin : view rd = e ++ rest := by rw [hin]; congr 1
  obtain ⟨prog, hc⟩ := optInt_wellFormed.compiles σ.ord
  have hr := resolve_self optInt_wellFormed.self Datum.skippable σ.dv .nil optInt.root d optInt_wellFormed.closedRoot hv h1
  exact outcome_value optInt_wellFormed.suited hd hc (hin ▸ reads_enc hl h2 h3 rest) hr

/-! ### C12 -/

/-- C12: what follows a datum is left for the next call, so a stream of serialized values
decodes to these values. (Null at the root is excluded, as in C11.) -/
theorem stream_partial {s : Schema} (hs : WellFormed s) (hd : σ.ro.Delivers view) (hl : σ.lim < 2 ^ 63) (bw : Bool) :
    ∀ (vs : List (MapOrder × Val)), (∀ x ∈ vs, HasTy s.env σ.lim x.2 s.root ∧ x.2 ≠ .nil) →
    ∀ {rd : R} {rest : List Byte}, view rd = (vs.map fun x => wire s bw x.1 x.2).flatten ++ rest →
    ∃ rd', DecodesAll σ s s rd (vs.map (·.2)) rd' ∧ view rd' = rest
  | [], _, rd, rest, hin => ⟨rd, .nil, by simpa using hin⟩
  | (mo, v) :: vs, hv, rd, rest, hin => by
    obtain ⟨h1, h2⟩ := hv (mo, v) (by simp)
    obtain ⟨_, rd', h3, h4⟩ := roundtrip_partial hs hd hl bw mo h1 h2 (rd := rd)
      (rest := (vs.map fun x => wire s bw x.1 x.2).flatten ++ rest) (by simpa using hin)
    obtain ⟨rd'', h5, h6⟩ := stream_partial hs hd hl bw vs (fun x hx => hv x (by simp [hx])) h4
    exact ⟨rd'', .cons h3 h5, h6⟩

example : ∃ rd', DecodesAll (demo true) sample sample [wire sample true .id sampleVal, wire sample true .rev leafVal ++ [9]]
    [sampleVal, leafVal] rd' ∧ rd'.flatten = [9] :=
  stream_partial sample_wellFormed (demo_delivers true) (by decide) true [(.id, sampleVal), (.rev, leafVal)]
    (by
      intro x hx
      simp only [List.mem_cons, List.not_mem_nil, or_false] at hx
      rcases hx with rfl | rfl
      · exact ⟨sampleVal_hasTy, by simp [sampleVal]⟩
      · exact ⟨leafVal_hasTy, by simp [leafVal]⟩)
    (by simp)

/-- C12, for data of any writer: the value depends on the bytes of the datum only, and
exactly these are consumed. -/
theorem self_delimiting {w r : Schema} (hs : Suited w r) (hd : σ.ro.Delivers view) (hl : σ.lim < 2 ^ 63)
    {d : Datum} {e : List Byte} (he : Enc w.env d w.root e) (hw : d.within σ.lim)
    {rd rd' : R} {v : Val} {rest : List Byte} (hin : view rd = e ++ rest)
    (hv : Deserializes σ w r rd (.value v rd')) :
    view rd' = rest ∧ ∀ (rd2 : R) (rest2 : List Byte), view rd2 = e ++ rest2 →
      ∃ rd2', Deserializes σ w r rd2 (.value v rd2') ∧ view rd2' = rest2 := by
  have key : ∃ prog, compile σ.ord false w r = .ok prog := by cases hv with | value h _ _ => exact ⟨_, h⟩
  obtain ⟨prog, hc⟩ := key
  cases hres : resolve Datum.skippable σ.dv w.env r.env d w.root r.root with
  | none =>
    have := outcome_unresolved hs hd hc (hin ▸ reads_enc hl he hw rest) hres
    cases hv.det this
  | some v' =>
    obtain ⟨rd1, h1, h2⟩ := outcome_value hs hd hc (hin ▸ reads_enc hl he hw rest) hres
    cases hv.det h1
    refine ⟨h2, fun rd2 rest2 hin2 => ?_⟩
    exact outcome_value hs hd hc (hin2 ▸ reads_enc hl he hw rest2) hres

example : ∃ rd', Deserializes (demo false) sample sampleR [sampleBytes tags1 attrs1, [5]] (.value sampleValR rd') ∧
    rd'.flatten = [5] := by
  obtain ⟨prog, hc⟩ := sample_compiles
  exact outcome_value (σ := demo false) sample_suited (demo_delivers false) hc
    (reads_enc (by decide) (sample_enc tags1_blocks attrs1_blocks) sampleDatum_within [5]) sampleDatum_resolve

/-! ### C13 -/

/-- C13: encodings followed by anything are the same only if the values are; so different
values have different encodings, none of which is a prefix of the other. -/
theorem unambiguous {s : Schema} (hs : WellFormed s) {lim : Nat} (hl : lim < 2 ^ 63) (bw bw' : Bool) (mo mo' : MapOrder)
    {v v' : Val} (hv : HasTy s.env lim v s.root) (hv' : HasTy s.env lim v' s.root) {x y : List Byte}
    (h : wire s bw mo v ++ x = wire s bw' mo' v' ++ y) : v = v' ∧ x = y := by
  obtain ⟨d, e, h1, h2, h3, h4, h5⟩ := ser_enc s.env bw mo hl v s.root [] hv
  obtain ⟨d', e', h1', h2', h3', h4', h5'⟩ := ser_enc s.env bw' mo' hl v' s.root [] hv'
  have e1 : e = wire s bw mo v := by unfold wire serialize; exact h5.symm
  have e2 : e' = wire s bw' mo' v' := by unfold wire serialize; exact h5'.symm
  rw [← e1, ← e2] at h
  have hr := reads_enc (k := false) hl h2 h3 x
  have hr' := reads_enc (k := false) hl h2' h3' y
  rw [h] at hr
  have := hr.det hr'
  simp only [Option.some.injEq, Prod.mk.injEq] at this
  obtain ⟨rfl, rfl⟩ := this
  have a := resolve_self hs.self Datum.skippable (fun _ => .null) v s.root d hs.closedRoot hv h1
  have b := resolve_self hs.self Datum.skippable (fun _ => .null) v' s.root d hs.closedRoot hv' h1'
  rw [a] at b
  exact ⟨Option.some.inj b, rfl⟩

example : wire sample true .id sampleVal ≠ wire sample false .rev leafVal ++ [1] := by
  intro h
  have := unambiguous sample_wellFormed (lim := 1000) (by decide) true false .id .rev sampleVal_hasTy leafVal_hasTy
    (x := []) (y := [1]) (by simpa using h)
  exact absurd this.2 (by simp)

/-! ### C14 -/

/-- The same outcome on two readers, up to the state of the reader. -/
inductive SameRes : Res R → Res R → Prop
  | refused : SameRes .refused .refused
  | failed : SameRes .failed .failed
  | value {v rd rd'} : SameRes (.value v rd) (.value v rd')

/-- C14: two encodings of a datum, however they are cut into blocks, have the same outcome
under every reader schema. -/
theorem any_layout {w r : Schema} (hs : Suited w r) (hd : σ.ro.Delivers view) (hl : σ.lim < 2 ^ 63)
    {d : Datum} (hw : d.within σ.lim) {e e' rest rest' : List Byte} (he : Enc w.env d w.root e)
    (he' : Enc w.env d w.root e') {rd rd' : R} (hin : view rd = e ++ rest) (hin' : view rd' = e' ++ rest') :
    ∃ res res', Deserializes σ w r rd res ∧ Deserializes σ w r rd' res' ∧ SameRes res res' := by
  cases hc : compile σ.ord false w r with
  | error err => exact ⟨_, _, .refused hc, .refused hc, .refused⟩
  | ok prog =>
    have r1 := reads_enc (k := σ.ro.byteReader) hl he hw rest
    have r2 := reads_enc (k := σ.ro.byteReader) hl he' hw rest'
    rw [← hin] at r1; rw [← hin'] at r2
    cases hres : resolve Datum.skippable σ.dv w.env r.env d w.root r.root with
    | none => exact ⟨_, _, outcome_unresolved hs hd hc r1 hres, outcome_unresolved hs hd hc r2 hres, .failed⟩
    | some v' =>
      obtain ⟨rd1, h1, h2⟩ := outcome_value hs hd hc r1 hres
      obtain ⟨rd2, h3, h4⟩ := outcome_value hs hd hc r2 hres
      exact ⟨_, _, h1, h3, .value⟩

example : sampleBytes tags1 attrs1 ≠ sampleBytes tags2 attrs2 ∧ ∃ res res',
    Deserializes (demo false) sample sampleR [sampleBytes tags1 attrs1] res ∧
    Deserializes (demo false) sample sampleR [sampleBytes tags2 attrs2] res' ∧ SameRes res res' :=
  ⟨by decide, any_layout sample_suited (demo_delivers false) (by decide) sampleDatum_within
    (sample_enc tags1_blocks attrs1_blocks) (sample_enc tags2_blocks attrs2_blocks) (rest := []) (rest' := [])
    (by simp) (by simp)⟩

/-! ### C15 -/

/-- C15: the order of iteration over maps while serializing has no effect on what is decoded. -/
theorem map_order_invisible {s : Schema} (hs : WellFormed s) (hd : σ.ro.Delivers view) (hl : σ.lim < 2 ^ 63)
    (bw : Bool) (mo mo' : MapOrder) {v : Val} (hv : HasTy s.env σ.lim v s.root) {rd rd' : R} {rest rest' : List Byte}
    (hin : view rd = wire s bw mo v ++ rest) (hin' : view rd' = wire s bw mo' v ++ rest') :
    ∃ u q q', Deserializes σ s s rd (.value u q) ∧ Deserializes σ s s rd' (.value u q') ∧
      view q = rest ∧ view q' = rest' ∧ (v ≠ .nil → u = v) := by
  obtain ⟨prog, hc⟩ := hs.compiles σ.ord
  obtain ⟨d, e, h1, h2, h3, h4, h5⟩ := ser_enc s.env bw mo hl v s.root [] hv
  obtain ⟨d', e', h1', h2', h3', h4', h5'⟩ := ser_enc s.env bw mo' hl v s.root [] hv
  have hin : view rd = e ++ rest := by rw [hin]; congr 1
  have hin' : view rd' = e' ++ rest' := by rw [hin']; congr 1
  have a := resolve_self hs.self Datum.skippable σ.dv v s.root d hs.closedRoot hv h1
  have b := resolve_self hs.self Datum.skippable σ.dv v s.root d' hs.closedRoot hv h1'
  obtain ⟨q, h6, h7⟩ := outcome_value hs.suited hd hc (hin ▸ reads_enc hl h2 h3 rest) a
  obtain ⟨q', h8, h9⟩ := outcome_value hs.suited hd hc (hin' ▸ reads_enc hl h2' h3' rest') b
  exact ⟨rootVal v, q, q', h6, h8, h7, h9, fun hn => rootVal_ne hn⟩

example : wire sample true .id sampleVal ≠ wire sample true .rev sampleVal ∧
    ∃ u q q', Deserializes (demo false) sample sample [wire sample true .id sampleVal] (.value u q) ∧
      Deserializes (demo false) sample sample [wire sample true .rev sampleVal] (.value u q') ∧
      q.flatten = [] ∧ q'.flatten = [] ∧ (sampleVal ≠ .nil → u = sampleVal) :=
  ⟨by decide +kernel, map_order_invisible sample_wellFormed (demo_delivers false) (by decide) true .id .rev
    sampleVal_hasTy (by simp) (by simp)⟩

/-! ### C17 -/

theorem prefix_unreadable {lim : Nat} (hl : lim < 2 ^ 63) {env : Env} (hg : Grounded env) {d : Datum} {t : Ty}
    {p q : List Byte} (he : Enc env d t (p ++ q)) (hw : d.within lim) (hq : q ≠ []) :
    ReadsAs false lim env t p none := by
  obtain ⟨a, ha⟩ := reads_total false lim hg t p
  cases a with
  | none => exact ha
  | some x =>
    obtain ⟨d', z⟩ := x
    obtain ⟨c, h1, h2⟩ := reads_local ha (.inl rfl)
    have h3 := h2 (z ++ q)
    rw [← List.append_assoc, ← h1] at h3
    have h4 := reads_enc (k := false) hl he hw []
    rw [List.append_nil] at h4
    have := h3.det h4
    simp only [Option.some.injEq, Prod.mk.injEq, List.append_eq_nil_iff] at this
    exact absurd this.2.2 hq

/-- C17: a proper prefix of an encoding is an error, for every reader schema. -/
theorem truncated {w r : Schema} (hs : Suited w r) (hg : Grounded w.env) (hd : σ.ro.Delivers view)
    (hb : σ.ro.byteReader = false) (hl : σ.lim < 2 ^ 63) {d : Datum} (hw : d.within σ.lim) {p q : List Byte}
    (he : Enc w.env d w.root (p ++ q)) (hq : q ≠ []) {rd : R} (hin : view rd = p) : Fails σ w r rd := by
  cases hc : compile σ.ord false w r with
  | error err => exact .inl (.refused hc)
  | ok prog =>
    have := prefix_unreadable hl hg he hw hq
    rw [← hin, ← hb] at this
    exact .inr (outcome_unreadable hs hd hc this)

/-- C17: a proper prefix of what `Serialize` writes is an error. -/
theorem truncated_value {s : Schema} (hs : WellFormed s) (hd : σ.ro.Delivers view)
    (hb : σ.ro.byteReader = false) (hl : σ.lim < 2 ^ 63) (bw : Bool) (mo : MapOrder) {v : Val}
    (hv : HasTy s.env σ.lim v s.root) {p q : List Byte} (hp : wire s bw mo v = p ++ q) (hq : q ≠ []) {rd : R}
    (hin : view rd = p) : Deserializes σ s s rd .failed := by
  obtain ⟨d, e, h1, h2, h3, h4, h5⟩ := ser_enc s.env bw mo hl v s.root [] hv
  have : e = p ++ q := by rw [← hp]; exact h5.symm
  rw [this] at h2
  obtain ⟨prog, hc⟩ := hs.compiles σ.ord
  rcases truncated hs.suited hs.grounded hd hb hl h3 h2 hq hin with h | h
  · cases h with | refused h => rw [hc] at h; cases h
  · exact h

example : Fails (demo false) sample sampleR [sampleBytes tags1 attrs1 |>.take 20] :=
  truncated sample_suited sample_wellFormed.grounded (demo_delivers false) rfl (by decide) sampleDatum_within
    (p := (sampleBytes tags1 attrs1).take 20) (q := (sampleBytes tags1 attrs1).drop 20)
    (by rw [List.take_append_drop]; exact sample_enc tags1_blocks attrs1_blocks) (by decide) (by simp)

/-- C17 on any reader, for writer schemas without Booleans. -/
theorem truncated_any_reader {w r : Schema} (hs : Suited w r) (hg : Grounded w.env) (hd : σ.ro.Delivers view)
    (hn : w.noBool = true) (hl : σ.lim < 2 ^ 63) {d : Datum} (hw : d.within σ.lim) {p q : List Byte}
    (he : Enc w.env d w.root (p ++ q)) (hq : q ≠ []) {rd : R} (hin : view rd = p) : Fails σ w r rd := by
  cases hc : compile σ.ord false w r with
  | error err => exact .inl (.refused hc)
  | ok prog =>
    have := prefix_unreadable hl hg he hw hq
    rw [← hin] at this
    exact .inr (outcome_unreadable hs hd hc (this.any hn false _))

example : Fails (demo true) sample sampleR [sampleBytes tags1 attrs1 |>.take 20] :=
  truncated_any_reader sample_suited sample_wellFormed.grounded (demo_delivers true) (by decide +kernel) (by decide) sampleDatum_within
    (p := (sampleBytes tags1 attrs1).take 20) (q := (sampleBytes tags1 attrs1).drop 20)
    (by rw [List.take_append_drop]; exact sample_enc tags1_blocks attrs1_blocks) (by decide) (by simp)

/-- Why `truncated` needs a plain reader: with `ReadByte`, a Boolean is read as false at the
end of the input (v10/vm/readers.go:13-21). Also the reason for the restrictions in
`no_lookahead_partial` and `plain_then_byte_reader_partial`. -/
theorem bool_at_eof (hd : σ.ro.Delivers view) (hb : σ.ro.byteReader = true) :
    (∀ rd, view rd = [] → ∃ rd', Deserializes σ flag flag rd (.value (.record [.bool false]) rd')) ∧
    (∀ rd, view rd = [1] → ∃ rd', Deserializes σ flag flag rd (.value (.record [.bool true]) rd')) := by
  obtain ⟨prog, hc⟩ := flag_wellFormed.compiles σ.ord
  constructor
  · intro rd hin
    obtain ⟨rd', h, _⟩ := outcome_value flag_wellFormed.suited hd hc (rd := rd) (d := .record [.bool false]) (z := [])
      (by rw [hb, hin]; exact ⟨3, rfl⟩) (v := .record [.bool false]) rfl
    exact ⟨rd', h⟩
  · intro rd hin
    obtain ⟨rd', h, _⟩ := outcome_value flag_wellFormed.suited hd hc (rd := rd) (d := .record [.bool true]) (z := [])
      (by rw [hb, hin]; exact ⟨3, rfl⟩) (v := .record [.bool true]) rfl
    exact ⟨rd', h⟩

/-- A plain reader reports the error. -/
theorem bool_at_eof_plain (hd : σ.ro.Delivers view) (hb : σ.ro.byteReader = false) {rd : R} (hin : view rd = []) :
    Deserializes σ flag flag rd .failed := by
  obtain ⟨prog, hc⟩ := flag_wellFormed.compiles σ.ord
  exact outcome_unreadable flag_wellFormed.suited hd hc (by rw [hb, hin]; exact ⟨3, _, rfl⟩)

/-! ### C18 -/

theorem bad_unread {lim : Nat} (hl : lim < 2 ^ 63) {k : Bool} {env : Env} {t : Ty} {bs : List Byte} {enums : Bool}
    (hbad : BadIndex env lim enums t bs) {d z} (h : ReadsAs k lim env t bs (some (d, z))) :
    enums = true ∧ ¬ EnumsIn env d t := by
  obtain ⟨n, h⟩ := h
  exact badIndex_parse k hl hbad n d z h

/-- C18, unions: an index of a union that does not exist is an error, for every reader schema. -/
theorem bad_union_index {w r : Schema} (hs : Suited w r) (hg : Grounded w.env) (hd : σ.ro.Delivers view)
    (hl : σ.lim < 2 ^ 63) {rd : R} (hbad : BadIndex w.env σ.lim false w.root (view rd)) : Fails σ w r rd := by
  cases hc : compile σ.ord false w r with
  | error err => exact .inl (.refused hc)
  | ok prog =>
    obtain ⟨a, ha⟩ := reads_total σ.ro.byteReader σ.lim hg w.root (view rd)
    cases a with
    | none => exact .inr (outcome_unreadable hs hd hc ha)
    | some x => exact absurd (bad_unread hl hbad ha).1 (by simp)

/-- The index 5 in the last field of `sample`, a union of two. -/
theorem sample_bad_union (enums : Bool) (rest : List Byte) : BadIndex sample.env 1000 enums sample.root
    ([10, 2, 0x62, 0, 1, 2, 3, 4, 0, 0, 0] ++ (10 :: rest)) := by
  have h5 : 10 :: rest = encLong 5 ++ rest := by rw [show encLong 5 = [10] by decide +kernel]; rfl
  rw [h5]
  refine .field (d := nodeDef) (fs := nodeFields.take 7) (f := { name := "alt".toList, ty := .union [.int, .string] })
    (gs := []) (ds := [.long 5, .string (txt "b"), .enum 0, .fixed [1, 2, 3, 4], .array [], .map [], .union 0 .null])
    rfl rfl ?_ ?_ (.union ⟨by decide, by decide, by decide⟩)
  · refine ⟨_, _, [10], [2, 0x62, 0, 1, 2, 3, 4, 0, 0, 0], rfl, ⟨rfl, by decide +kernel⟩, ?_, rfl⟩
    refine ⟨_, _, [2, 0x62], [0, 1, 2, 3, 4, 0, 0, 0], rfl, ⟨rfl, by decide +kernel⟩, ?_, rfl⟩
    refine ⟨_, _, [0], [1, 2, 3, 4, 0, 0, 0], rfl,
      ⟨_, colorDef, _, _, rfl, rfl, rfl, by decide, by decide, by decide +kernel⟩, ?_, rfl⟩
    refine ⟨_, _, [1, 2, 3, 4], [0, 0, 0], rfl, ⟨_, idDef, rfl, rfl, rfl, rfl⟩, ?_, rfl⟩
    refine ⟨_, _, [0], [0, 0], rfl, ⟨_, [], rfl, rfl, encLong0 ▸ .done⟩, ?_, rfl⟩
    refine ⟨_, _, [0], [0], rfl, ⟨_, [], rfl, rfl, encLong0 ▸ .done⟩, ?_, rfl⟩
    refine ⟨_, _, [0], [], rfl, ⟨_, _, [], rfl, rfl, ⟨rfl, rfl⟩, by decide +kernel⟩, ?_, rfl⟩
    exact ⟨rfl, rfl⟩
  · simp only [Datum.allWithin, Datum.within, Datum.entriesWithin]; decide

example : Fails (demo true) sample sampleR [[10, 2, 0x62, 0, 1, 2, 3, 4, 0, 0, 0], [10, 1, 2, 3]] :=
  bad_union_index sample_suited sample_wellFormed.grounded (demo_delivers true) (by decide)
    (sample_bad_union false [1, 2, 3])

/-- C18, unions and enums, when the reader's schema is the writer's. With other readers the
index of an enum in a field that the reader does not have is not checked
(`skipped_enum_unchecked`). -/
theorem bad_index_partial {s : Schema} (hs : WellFormed s) (hd : σ.ro.Delivers view)
    (hl : σ.lim < 2 ^ 63) {rd : R} (hbad : BadIndex s.env σ.lim true s.root (view rd)) :
    Deserializes σ s s rd .failed := by
  obtain ⟨prog, hc⟩ := hs.compiles σ.ord
  obtain ⟨a, ha⟩ := reads_total σ.ro.byteReader σ.lim hs.grounded s.root (view rd)
  cases a with
  | none => exact outcome_unreadable hs.suited hd hc ha
  | some x =>
    obtain ⟨d, z⟩ := x
    cases hres : resolve Datum.skippable σ.dv s.env s.env d s.root s.root with
    | none => exact outcome_unresolved hs.suited hd hc ha hres
    | some v =>
      exact absurd (resolve_enumsIn s.env Datum.skippable σ.dv hs.self d s.root v hs.closedRoot hres)
        (bad_unread hl hbad ha).2

/-- The index 9 of an enum with one symbol. -/
theorem enumW_bad (rest : List Byte) : BadIndex enumW.env 1000 true enumW.root (18 :: rest) := by
  have : 18 :: rest = [] ++ (encLong 9 ++ rest) := by rw [show encLong 9 = [18] by decide +kernel]; rfl
  rw [this]
  refine .field (q := qR) (d := { name := qR, kind := .record enumFields }) (fs := []) (ds := []) rfl rfl ⟨rfl, rfl⟩ trivial ?_
  exact .enum (d := { name := qE, kind := .enum ["A".toList] [] }) rfl rfl rfl ⟨by decide, by decide, by decide⟩

example : Deserializes (demo true) sample sample [[10, 2, 0x62, 0, 1, 2, 3, 4, 0, 0, 0], [10, 1, 2, 3]] .failed :=
  bad_index_partial sample_wellFormed (demo_delivers true) (by decide) (sample_bad_union true [1, 2, 3])

/-- What is missing in `bad_index_partial`: the reader does not have the field of the enum,
and the index, of a symbol that does not exist, is skipped. -/
theorem skipped_enum_unchecked : (∀ rest, BadIndex enumW.env 1000 true enumW.root (18 :: rest)) ∧
    ∃ rd', Deserializes (demo false) enumW enumR [[18, 2]] (.value (.record [.int 1]) rd') := by
  refine ⟨enumW_bad, ?_⟩
  obtain ⟨prog, hc⟩ := enum_compiles
  obtain ⟨rd', h, _⟩ := outcome_value (σ := demo false) enum_suited (demo_delivers false) hc (rd := [[18, 2]])
    (d := .record [.enum 9, .int 1]) (z := []) ⟨5, rfl⟩ (v := .record [.int 1]) rfl
  exact ⟨rd', h⟩

/-! ### C19, C21, C60 -/

/-- C19: decoding ends, with a value or an error. C21, fresh targets: no part of the value
is left unassigned (`Res.junk`). C60: there is one outcome. -/
theorem decoding_ends {w r : Schema} (hs : Suited w r) (hg : Grounded w.env) (hd : σ.ro.Delivers view) (rd : R) :
    ∃ res, (∀ res', Deserializes σ w r rd res' ↔ res' = res) ∧
      (res = .refused ∨ res = .failed ∨ ∃ v rd', res = .value v rd') := by
  obtain ⟨res, h1, h2⟩ := outcome_total hs hg hd rd
  refine ⟨res, fun res' => ⟨fun h => h.det h1, fun h => h ▸ h1⟩, ?_⟩
  rcases h2 with ⟨h, _⟩ | ⟨_, _, v, rd', _, _, _, h⟩ | ⟨_, _, _, _, _, _, h⟩ | ⟨_, _, _, h⟩
  · exact .inl h
  · exact .inr (.inr ⟨_, _, h⟩)
  · exact .inr (.inl h)
  · exact .inr (.inl h)

example (input : List (List Byte)) :
    ∃ res, (∀ res', Deserializes (demo true) sample sampleR input res' ↔ res' = res) ∧
      (res = .refused ∨ res = .failed ∨ ∃ v rd', res = .value v rd') :=
  decoding_ends sample_suited sample_wellFormed.grounded (demo_delivers true) input

/-! ### C20 -/

/-- C20: a success is a success, with the same value, whatever follows. (For readers with
`ReadByte` something must be left over: see `bool_at_eof`.) -/
theorem no_lookahead_partial {w r : Schema} (hs : Suited w r) (hg : Grounded w.env) (hd : σ.ro.Delivers view)
    {rd rd' : R} {v : Val} (h : Deserializes σ w r rd (.value v rd'))
    (hb : σ.ro.byteReader = false ∨ view rd' ≠ []) {rd2 : R} {x : List Byte} (hin : view rd2 = view rd ++ x) :
    ∃ rd2', Deserializes σ w r rd2 (.value v rd2') ∧ view rd2' = view rd' ++ x := by
  obtain ⟨prog, d, v', hc, hr, hres, rfl⟩ := value_of hs hg hd h
  obtain ⟨c, h1, h2⟩ := reads_local hr hb
  have := h2 (view rd' ++ x)
  rw [← List.append_assoc, ← h1, ← hin] at this
  exact outcome_value hs hd hc this hres

/-- C20 on any reader, for writer schemas without Booleans. -/
theorem no_lookahead_any_reader {w r : Schema} (hs : Suited w r) (hg : Grounded w.env) (hd : σ.ro.Delivers view)
    (hn : w.noBool = true) {rd rd' : R} {v : Val} (h : Deserializes σ w r rd (.value v rd'))
    {rd2 : R} {x : List Byte} (hin : view rd2 = view rd ++ x) :
    ∃ rd2', Deserializes σ w r rd2 (.value v rd2') ∧ view rd2' = view rd' ++ x := by
  obtain ⟨prog, d, v', hc, hr, hres, rfl⟩ := value_of hs hg hd h
  obtain ⟨c, h1, h2⟩ := reads_local (hr.any hn _ false) (.inl rfl)
  have := h2 (view rd' ++ x)
  rw [← List.append_assoc, ← h1, ← hin] at this
  exact outcome_value hs hd hc (this.any hn false _) hres

example : ∃ rd', Deserializes (demo false) sample sampleR [sampleBytes tags1 attrs1 ++ [1, 2]] (.value sampleValR rd') ∧
    rd'.flatten = [1, 2] := by
  obtain ⟨prog, hc⟩ := sample_compiles
  obtain ⟨rd', h, h2⟩ := outcome_value (σ := demo false) (rd := [sampleBytes tags1 attrs1 ++ []]) sample_suited
    (demo_delivers false) hc (z := []) (by
      have := reads_enc (k := false) (lim := 1000) (by decide) (sample_enc tags1_blocks attrs1_blocks) sampleDatum_within []
      simpa using this : ReadsAs false 1000 _ _ _ _) sampleDatum_resolve
  obtain ⟨rd2, h3, h4⟩ := no_lookahead_partial sample_suited sample_wellFormed.grounded (demo_delivers false) h (.inl rfl)
    (rd2 := [sampleBytes tags1 attrs1 ++ [1, 2]]) (x := [1, 2]) (by simp)
  exact ⟨rd2, h3, by rw [h4, h2]; rfl⟩

/-! ### C08 -/

/-- C08: two readers of the same kind that deliver the same bytes, in whatever pieces, give
the same outcome and leave the same bytes. -/
theorem same_bytes_same_outcome {R' : Type} {σ' : Setting R'} {view' : R' → List Byte} {w r : Schema}
    (hs : Suited w r) (hg : Grounded w.env) (hd : σ.ro.Delivers view) (hd' : σ'.ro.Delivers view')
    (hlim : σ'.lim = σ.lim) (hdv : σ'.dv = σ.dv)
    (hk : σ'.ro.byteReader = σ.ro.byteReader) {rd : R} {rd' : R'} (hin : view' rd' = view rd) :
    (Deserializes σ w r rd .refused ∧ Deserializes σ' w r rd' .refused) ∨
    (Deserializes σ w r rd .failed ∧ Deserializes σ' w r rd' .failed) ∨
    ∃ v q q', Deserializes σ w r rd (.value v q) ∧ Deserializes σ' w r rd' (.value v q') ∧ view q = view' q' := by
  obtain ⟨res, h1, h2⟩ := outcome_total hs hg hd rd
  rcases h2 with ⟨rfl, e, he⟩ | ⟨prog, d, v, q, hc, hr, hv, rfl⟩ | ⟨prog, d, z, hc, hr, hv, rfl⟩ | ⟨prog, hc, hr, rfl⟩
  · obtain ⟨e', he'⟩ := compile_any_order_error σ'.ord hs.toSound hs.fields he
    exact .inl ⟨h1, .refused he'⟩
  · obtain ⟨prog', hc'⟩ := compile_any_order σ'.ord hs.toSound hs.fields hc
    obtain ⟨q', h3, h4⟩ := outcome_value (σ := σ') hs hd' hc' (rd := rd')
      (by rw [hk, hlim, hin]; exact hr) (hdv ▸ hv)
    exact .inr (.inr ⟨_, q, q', h1, h3, h4.symm⟩)
  · obtain ⟨prog', hc'⟩ := compile_any_order σ'.ord hs.toSound hs.fields hc
    exact .inr (.inl ⟨h1, outcome_unresolved (σ := σ') hs hd' hc' (rd := rd')
      (by rw [hk, hlim, hin]; exact hr) (hdv ▸ hv)⟩)
  · obtain ⟨prog', hc'⟩ := compile_any_order σ'.ord hs.toSound hs.fields hc
    exact .inr (.inl ⟨h1, outcome_unreadable (σ := σ') hs hd' hc' (rd := rd')
      (by rw [hk, hlim, hin]; exact hr)⟩)

example (x y : List Byte) :
    (Deserializes (demo true) sample sampleR [x, y] .refused ∧ Deserializes (demo true) sample sampleR [x ++ y] .refused) ∨
    (Deserializes (demo true) sample sampleR [x, y] .failed ∧ Deserializes (demo true) sample sampleR [x ++ y] .failed) ∨
    ∃ v q q', Deserializes (demo true) sample sampleR [x, y] (.value v q) ∧
      Deserializes (demo true) sample sampleR [x ++ y] (.value v q') ∧ q.flatten = q'.flatten :=
  same_bytes_same_outcome sample_suited sample_wellFormed.grounded (demo_delivers true) (demo_delivers true) rfl rfl rfl
    (by simp)

/-- C08: what succeeds on a plain reader succeeds, with the same value, on one with
`ReadByte`; see `byte_then_plain_reader_partial` for the converse, and `bool_at_eof` for why it
does not hold always. -/
theorem plain_then_byte_reader_partial {R' : Type} {σ' : Setting R'} {view' : R' → List Byte} {w r : Schema}
    (hs : Suited w r) (hg : Grounded w.env) (hd : σ.ro.Delivers view) (hd' : σ'.ro.Delivers view')
    (hlim : σ'.lim = σ.lim) (hdv : σ'.dv = σ.dv)
    (hk : σ.ro.byteReader = false) (hk' : σ'.ro.byteReader = true)
    {rd q : R} {rd' : R'} (hin : view' rd' = view rd) {v : Val} (h : Deserializes σ w r rd (.value v q)) :
    ∃ q', Deserializes σ' w r rd' (.value v q') ∧ view' q' = view q := by
  obtain ⟨prog, d, v', hc, hr, hres, rfl⟩ := value_of hs hg hd h
  rw [hk] at hr
  obtain ⟨prog', hc'⟩ := compile_any_order σ'.ord hs.toSound hs.fields hc
  exact outcome_value (σ := σ') hs hd' hc' (rd := rd') (by rw [hk', hlim, hin]; exact reads_plain_byte hr) (hdv ▸ hres)

/-- C08, the converse: what succeeds on a reader with `ReadByte`, and leaves something over,
succeeds on a plain reader. -/
theorem byte_then_plain_reader_partial {R' : Type} {σ' : Setting R'} {view' : R' → List Byte} {w r : Schema}
    (hs : Suited w r) (hg : Grounded w.env) (hd : σ.ro.Delivers view) (hd' : σ'.ro.Delivers view')
    (hlim : σ'.lim = σ.lim) (hdv : σ'.dv = σ.dv)
    (hk : σ.ro.byteReader = true) (hk' : σ'.ro.byteReader = false)
    {rd q : R} {rd' : R'} (hin : view' rd' = view rd) {v : Val} (h : Deserializes σ w r rd (.value v q))
    (hq : view q ≠ []) :
    ∃ q', Deserializes σ' w r rd' (.value v q') ∧ view' q' = view q := by
  obtain ⟨prog, d, v', hc, hr, hres, rfl⟩ := value_of hs hg hd h
  rw [hk] at hr
  obtain ⟨prog', hc'⟩ := compile_any_order σ'.ord hs.toSound hs.fields hc
  exact outcome_value (σ := σ') hs hd' hc' (rd := rd')
    (by rw [hk', hlim, hin]; exact reads_byte_plain hr hq) (hdv ▸ hres)

/-- C08, writer schemas without Booleans: what the readers can do makes no difference on any input. -/
theorem any_reader_same_outcome {R' : Type} {σ' : Setting R'} {view' : R' → List Byte} {w r : Schema}
    (hs : Suited w r) (hg : Grounded w.env) (hn : w.noBool = true) (hd : σ.ro.Delivers view) (hd' : σ'.ro.Delivers view')
    (hlim : σ'.lim = σ.lim) (hdv : σ'.dv = σ.dv) {rd : R} {rd' : R'} (hin : view' rd' = view rd) :
    (Deserializes σ w r rd .refused ∧ Deserializes σ' w r rd' .refused) ∨
    (Deserializes σ w r rd .failed ∧ Deserializes σ' w r rd' .failed) ∨
    ∃ v q q', Deserializes σ w r rd (.value v q) ∧ Deserializes σ' w r rd' (.value v q') ∧ view q = view' q' := by
  obtain ⟨res, h1, h2⟩ := outcome_total hs hg hd rd
  rcases h2 with ⟨rfl, e, he⟩ | ⟨prog, d, v, q, hc, hr, hv, rfl⟩ | ⟨prog, d, z, hc, hr, hv, rfl⟩ | ⟨prog, hc, hr, rfl⟩
  · obtain ⟨e', he'⟩ := compile_any_order_error σ'.ord hs.toSound hs.fields he
    exact .inl ⟨h1, .refused he'⟩
  · obtain ⟨prog', hc'⟩ := compile_any_order σ'.ord hs.toSound hs.fields hc
    obtain ⟨q', h3, h4⟩ := outcome_value (σ := σ') hs hd' hc' (rd := rd')
      (by rw [hlim, hin]; exact hr.any hn _ _) (hdv ▸ hv)
    exact .inr (.inr ⟨_, q, q', h1, h3, h4.symm⟩)
  · obtain ⟨prog', hc'⟩ := compile_any_order σ'.ord hs.toSound hs.fields hc
    exact .inr (.inl ⟨h1, outcome_unresolved (σ := σ') hs hd' hc' (rd := rd')
      (by rw [hlim, hin]; exact hr.any hn _ _) (hdv ▸ hv)⟩)
  · obtain ⟨prog', hc'⟩ := compile_any_order σ'.ord hs.toSound hs.fields hc
    exact .inr (.inl ⟨h1, outcome_unreadable (σ := σ') hs hd' hc' (rd := rd')
      (by rw [hlim, hin]; exact hr.any hn _ _)⟩)

example (x y : List Byte) :
    (Deserializes (demo true) sample sampleR [x, y] .refused ∧ Deserializes (demo false) sample sampleR [x ++ y] .refused) ∨
    (Deserializes (demo true) sample sampleR [x, y] .failed ∧ Deserializes (demo false) sample sampleR [x ++ y] .failed) ∨
    ∃ v q q', Deserializes (demo true) sample sampleR [x, y] (.value v q) ∧
      Deserializes (demo false) sample sampleR [x ++ y] (.value v q') ∧ q.flatten = q'.flatten :=
  any_reader_same_outcome sample_suited sample_wellFormed.grounded (by decide +kernel) (demo_delivers true) (demo_delivers false)
    rfl rfl (by simp)

/-- C08, well-formed input: on an encoding the kind of reader makes no difference. -/
theorem encoding_any_reader {R' : Type} {σ' : Setting R'} {view' : R' → List Byte} {w r : Schema}
    (hs : Suited w r) (hd : σ.ro.Delivers view) (hd' : σ'.ro.Delivers view') (hl : σ.lim < 2 ^ 63)
    (hlim : σ'.lim = σ.lim) (hdv : σ'.dv = σ.dv)
    {d : Datum} (hw : d.within σ.lim) {e rest : List Byte} (he : Enc w.env d w.root e)
    {rd : R} {rd' : R'} (hin : view rd = e ++ rest) (hin' : view' rd' = e ++ rest) :
    (Deserializes σ w r rd .refused ∧ Deserializes σ' w r rd' .refused) ∨
    (Deserializes σ w r rd .failed ∧ Deserializes σ' w r rd' .failed) ∨
    ∃ v q q', Deserializes σ w r rd (.value v q) ∧ Deserializes σ' w r rd' (.value v q') ∧
      view q = rest ∧ view' q' = rest := by
  have r1 := reads_enc (k := σ.ro.byteReader) hl he hw rest
  have r2 := reads_enc (k := σ'.ro.byteReader) hl he hw rest
  rw [← hin] at r1; rw [← hin', ← hlim] at r2
  cases hc : compile σ.ord false w r with
  | error err =>
    obtain ⟨e', he'⟩ := compile_any_order_error σ'.ord hs.toSound hs.fields hc
    exact .inl ⟨.refused hc, .refused he'⟩
  | ok prog =>
    obtain ⟨prog', hc'⟩ := compile_any_order σ'.ord hs.toSound hs.fields hc
    cases hres : resolve Datum.skippable σ.dv w.env r.env d w.root r.root with
    | none => exact .inr (.inl ⟨outcome_unresolved hs hd hc r1 hres, outcome_unresolved hs hd' hc' r2 (hdv ▸ hres)⟩)
    | some v' =>
      obtain ⟨rd1, h1, h2⟩ := outcome_value hs hd hc r1 hres
      obtain ⟨rd2, h3, h4⟩ := outcome_value hs hd' hc' r2 (hdv ▸ hres)
      exact .inr (.inr ⟨_, _, _, h1, h3, h2, h4⟩)

example : ∃ v q q', Deserializes (demo false) sample sampleR [sampleBytes tags2 attrs2] (.value v q) ∧
    Deserializes (demo true) sample sampleR [sampleBytes tags2 attrs2] (.value v q') := by
  obtain ⟨prog, hc⟩ := sample_compiles
  obtain ⟨rd', h, _⟩ := outcome_value (σ := demo false) (rd := [sampleBytes tags2 attrs2]) sample_suited
    (demo_delivers false) hc (z := []) (by
      have := reads_enc (k := false) (lim := 1000) (by decide) (sample_enc tags2_blocks attrs2_blocks) sampleDatum_within []
      simpa using this : ReadsAs false 1000 _ _ _ _) sampleDatum_resolve
  obtain ⟨q', h2, _⟩ := plain_then_byte_reader_partial sample_suited sample_wellFormed.grounded (demo_delivers false)
    (demo_delivers true) rfl rfl rfl rfl (rd' := [sampleBytes tags2 attrs2]) rfl h
  exact ⟨_, _, _, h, h2⟩

/-! ### C22 -/

/-- C22: the outcome on the encoding of a datum is what schema resolution gives, an error if
it gives none; `Datum.skippable` data may be dropped (see `resolution_sound`,
`resolution_exact`). Null at the root is returned as `rootVal` says. -/
theorem resolution_partial {w r : Schema} (hs : Suited w r) (hd : σ.ro.Delivers view) (hl : σ.lim < 2 ^ 63)
    {prog} (hc : compile σ.ord false w r = .ok prog)
    {d : Datum} (hw : d.within σ.lim) {e rest : List Byte} (he : Enc w.env d w.root e)
    {rd : R} (hin : view rd = e ++ rest) :
    match resolve Datum.skippable σ.dv w.env r.env d w.root r.root with
    | some v => ∃ rd', Deserializes σ w r rd (.value (rootVal v) rd') ∧ view rd' = rest
    | none => Deserializes σ w r rd .failed := by
  have r1 := reads_enc (k := σ.ro.byteReader) hl he hw rest
  rw [← hin] at r1
  split
  · exact outcome_value hs hd hc r1 ‹_›
  · exact outcome_unresolved hs hd hc r1 ‹_›

/-- `sampleR` drops fields, renames, reorders, promotes and fills in defaults. -/
example : ∃ rd', Deserializes (demo true) sample sampleR [sampleBytes tags2 attrs1, [7]] (.value sampleValR rd') ∧
    rd'.flatten = [7] := by
  obtain ⟨prog, hc⟩ := sample_compiles
  have := resolution_partial (σ := demo true) sample_suited (demo_delivers true) (by decide) hc sampleDatum_within
    (sample_enc tags2_blocks attrs1_blocks) (rd := [sampleBytes tags2 attrs1, [7]]) (rest := [7]) (by simp)
  rw [show resolve Datum.skippable (demo true).dv sample.env sampleR.env sampleDatum sample.root sampleR.root =
    some sampleValR from sampleDatum_resolve] at this
  exact this

/-- C22: a value that is returned is the one that Avro's rules give. -/
theorem resolution_sound {w r : Schema} (hs : Suited w r) (hg : Grounded w.env) (hd : σ.ro.Delivers view)
    (hl : σ.lim < 2 ^ 63) {d : Datum} (hw : d.within σ.lim) {e rest : List Byte} (he : Enc w.env d w.root e)
    {rd rd' : R} (hin : view rd = e ++ rest) {u : Val} (h : Deserializes σ w r rd (.value u rd')) :
    view rd' = rest ∧
    ∃ v, resolve (fun _ => true) σ.dv w.env r.env d w.root r.root = some v ∧ u = rootVal v := by
  obtain ⟨prog, d', v', hc, hr, hres, rfl⟩ := value_of hs hg hd h
  have r1 := reads_enc (k := σ.ro.byteReader) hl he hw rest
  rw [← hin] at r1
  have := hr.det r1
  simp only [Option.some.injEq, Prod.mk.injEq] at this
  obtain ⟨rfl, h2⟩ := this
  exact ⟨h2, v', resolve_mono (fun _ _ => rfl) σ.dv _ _ _ _ _ _ hres, rfl⟩
end

end Verif.Props
