import Verif.Gen.Accepts
import Verif.Props.GenericFails
/-
Property C83: which inputs are accepted.

* `Loose k env lim d t e` (Spec/Loose): what this implementation takes for the encoding `e` of a
  datum `d` (if `k`, Booleans may be missing); `Enc env d t e` (Spec/Encoding) is what Avro's specification says.
* `Deserializes σ w r rd (.value v rd')`: the generated function, given the writer's schema, returns
  `v`, and has not read what `rd'` still holds.
-/
namespace Verif.Props
open Verif
set_option linter.unusedVariables false

section
variable {R : Type} {σ : Setting R} {view : R → List Byte}

/-- Booleans at the very end of the input are read by readers with `ReadByte` although they are
not there (`bool_at_eof`). This says that the input is not such. -/
def BoolSafe (σ : Setting R) (w : Schema) (rest : List Byte) : Prop :=
  σ.ro.byteReader = false ∨ w.noBool = true ∨ rest ≠ []

theorem reads_any_loose {w : Schema} (hl : σ.lim < 2 ^ 63) {bs rest : List Byte} (hb : BoolSafe σ w rest) {d : Datum} :
    ReadsAs σ.ro.byteReader σ.lim w.env w.root bs (some (d, rest)) ↔
      ∃ e, bs = e ++ rest ∧ Loose false w.env σ.lim d w.root e := by
  rw [← reads_loose_iff hl]
  rcases hb with hb | hb | hb
  · rw [hb]
  · exact ⟨fun h => h.any hb _ _, fun h => h.any hb _ _⟩
  · cases σ.ro.byteReader
    · rfl
    · exact ⟨fun h => reads_byte_plain h hb, fun h => reads_plain_byte h⟩

/-- C83: the generated function returns a value exactly when `Compile` takes the two schemas, what was
read is, in the loose sense, the encoding of a datum, and the datum can be read under the reader's
schema. The value is the one that schema resolution says. -/
theorem accepted_iff {w r : Schema} (hs : Suited w r) (hg : Grounded w.env) (hd : σ.ro.Delivers view)
    (hl : σ.lim < 2 ^ 63) {rd : R} {rest : List Byte} (hb : BoolSafe σ w rest) {u : Val} :
    (∃ rd', Deserializes σ w r rd (.value u rd') ∧ view rd' = rest) ↔
      (∃ prog, compile σ.ord false w r = .ok prog) ∧
      ∃ d e v, view rd = e ++ rest ∧ Loose false w.env σ.lim d w.root e ∧
        resolve Datum.skippable σ.dv w.env r.env d w.root r.root = some v ∧ u = rootVal v := by
  constructor
  · rintro ⟨rd', h, rfl⟩
    obtain ⟨prog, d, v, h1, h2, h3, h4⟩ := value_of hs hg hd h
    obtain ⟨e, h5, h6⟩ := (reads_any_loose hl hb).1 h2
    exact ⟨⟨prog, h1⟩, d, e, v, h5, h6, h3, h4⟩
  · rintro ⟨⟨prog, hc⟩, d, e, v, h1, h2, h3, rfl⟩
    exact outcome_value hs hd hc ((reads_any_loose hl hb).2 ⟨e, h1, h2⟩) h3

example (input : List (List Byte)) (rest : List Byte) (u : Val) :=
  accepted_iff (σ := demo false) (rd := input) (rest := rest) (u := u) sample_suited sample_wellFormed.grounded (demo_delivers false)
    (by decide) (.inl rfl)

/-- C83, for the generic codec. -/
theorem generic_accepted_iff {w r : Schema} (hs : GMatched w r) (hg : Grounded w.env) (hd : σ.ro.Delivers view)
    (hl : σ.lim < 2 ^ 63) {rd : R} (hin : (view rd).length ≤ σ.lim) {rest : List Byte} (hb : BoolSafe σ w rest) {g : GVal} :
    (∃ rd', GDeserializes σ w r rd (.value g rd') ∧ view rd' = rest) ↔
      (∃ prog, compile σ.ord false w r = .ok prog) ∧
      ∃ d e v, view rd = e ++ rest ∧ Loose false w.env σ.lim d w.root e ∧
        resolve Datum.skippable σ.dv w.env r.env d w.root r.root = some v ∧
        rootShow w.env r.env d w.root r.root = some g := by
  constructor
  · rintro ⟨rd', h, rfl⟩
    rcases goutcome_of hs hg hd hl hin h with ⟨h, _⟩ | ⟨prog, d, rd'', h1, h2, h3, h4⟩ | ⟨_, _, _, _, _, _, h⟩ | ⟨_, _, _, h⟩
    · cases h
    · obtain ⟨v, h3⟩ := Option.isSome_iff_exists.1 h3
      cases hx : rootShow w.env r.env d w.root r.root with
      | none => rw [hx] at h4; cases h4
      | some g =>
        rw [hx] at h4; cases h4
        obtain ⟨e, h5, h6⟩ := (reads_any_loose hl hb).1 h2
        exact ⟨⟨prog, h1⟩, d, e, v, h5, h6, h3, hx⟩
    · cases h
    · cases h
  · rintro ⟨⟨prog, hc⟩, d, e, v, h1, h2, h3, h4⟩
    obtain ⟨rd', h5, h6⟩ := goutcome_value hs.toGSuited hd hc ((reads_any_loose hl hb).2 ⟨e, h1, h2⟩) (by rw [h3]; rfl)
    rw [h4] at h5
    exact ⟨rd', h5, h6⟩

example (input : List (List Byte)) (h : input.flatten.length ≤ 1000) (rest : List Byte) (g : GVal) :=
  generic_accepted_iff (σ := demo false) (rd := input) (rest := rest) (g := g) (sample_suited.matched sample_enums)
    sample_wellFormed.grounded (demo_delivers false) (by decide) h (.inl rfl)

/-- C83: everything Avro calls an encoding is one in the loose sense, if it is not larger than
Go can allocate. -/
theorem strict_is_loose {env : Env} {lim : Nat} (hl : lim < 2 ^ 63) {d : Datum} {t : Ty} {e : List Byte} (h : Enc env d t e)
    (hw : d.within lim) : Loose false env lim d t e := loose_of_enc hl h hw

example : Loose false sample.env 1000 sampleDatum sample.root (sampleBytes tags1 attrs1) :=
  strict_is_loose (by decide) (sample_enc tags1_blocks attrs1_blocks) sampleDatum_within

/-- C83: in the loose sense too the input says where the datum ends and what it is. -/
theorem loose_unambiguous {env : Env} {lim : Nat} (hl : lim < 2 ^ 63) {d d' : Datum} {t : Ty} {e e' x x' : List Byte}
    (h : Loose false env lim d t e) (h' : Loose false env lim d' t e') (he : e ++ x = e' ++ x') : d = d' ∧ e = e' ∧ x = x' :=
  loose_unique hl h h' he

/-- C83: what is decoded under the schema that wrote it is a datum of that schema: there is an
encoding of it as Avro specifies it, although the input need not be that encoding. -/
theorem accepted_is_datum_partial {s : Schema} (hs : WellFormed s) (hd : σ.ro.Delivers view)
    {rd rd' : R} {u : Val} (h : Deserializes σ s s rd (.value u rd')) :
    ∃ d e v, Enc s.env d s.root e ∧ resolve Datum.skippable σ.dv s.env s.env d s.root s.root = some v ∧ u = rootVal v ∧
      ∃ e', view rd = e' ++ view rd' ∧ Loose σ.ro.byteReader s.env σ.lim d s.root e' := by
  obtain ⟨prog, d, v, h1, h2, h3, h4⟩ := value_of hs.suited hs.grounded hd h
  obtain ⟨e', h5, h6⟩ := reads_taken h2
  obtain ⟨e, he⟩ := enc_of_loose d s.root e' h6
    (resolve_enumsIn s.env Datum.skippable σ.dv hs.self d s.root v hs.closedRoot h3)
  exact ⟨d, e, v, he, h3, h4, e', h5, h6⟩

/-! ### What is accepted although it is no encoding -/

/-- No part of the input that begins at the start encodes a datum. -/
def NoEncoding (s : Schema) (lim : Nat) (bs : List Byte) : Prop :=
  ∀ d e z, bs = e ++ z → d.within lim → ¬ Enc s.env d s.root e

theorem noEncoding_of {s : Schema} {lim : Nat} (hl : lim < 2 ^ 63) {d : Datum} {e z : List Byte} (h : Loose false s.env lim d s.root e)
    (hn : ¬ Enc s.env d s.root e) : NoEncoding s lim (e ++ z) := by
  intro d' e' z' he hw hc
  obtain ⟨rfl, rfl, -⟩ := loose_unique hl h (loose_of_enc hl hc hw) he
  exact hn hc

/-- The value comes out although the input is no encoding, whatever reader is used. -/
def TakenAnyway (s : Schema) (bs : List Byte) (v : Val) : Prop :=
  ∀ (k : Bool) (rd : List (List Byte)) (z : List Byte), rd.flatten = bs ++ z →
    NoEncoding s 1000 (bs ++ z) ∧ ∃ rd', Deserializes (demo k) s s rd (.value v rd') ∧ rd'.flatten = z

theorem takenAnyway_of {s : Schema} (hs : WellFormed s) {d : Datum} {bs : List Byte} {v : Val}
    (h : Loose false s.env 1000 d s.root bs) (hn : ¬ Enc s.env d s.root bs)
    (hv : resolve Datum.skippable (fun _ => .int 7) s.env s.env d s.root s.root = some v) (hnil : v ≠ .nil) : TakenAnyway s bs v := by
  intro k rd z hin
  refine ⟨noEncoding_of (by decide) h hn, ?_⟩
  obtain ⟨prog, hc⟩ := hs.compiles (demo k).ord
  have hr : ReadsAs k 1000 s.env s.root (bs ++ z) (some (d, z)) := by
    cases k
    · exact (reads_loose_iff (by decide)).2 ⟨bs, rfl, h⟩
    · exact reads_plain_byte ((reads_loose_iff (by decide)).2 ⟨bs, rfl, h⟩)
  rw [← hin] at hr
  obtain ⟨rd', h1, h2⟩ := outcome_value (σ := demo k) hs.suited (demo_delivers k) hc hr hv
  rw [rootVal_ne hnil] at h1
  exact ⟨rd', h1, h2⟩

def qOnly : QName := ⟨[], "Only".toList⟩
/-- A record with one field. -/
def oneOf (t : Ty) : Schema := one qOnly [{ name := "x".toList, ty := t }]

theorem oneOf_wellFormed {t : Ty} (h : wellFormedB (oneOf t) (fun _ => 0) = true) : WellFormed (oneOf t) := wellFormed_of _ h

theorem oneOf_loose {t : Ty} {lim : Nat} {d : Datum} {bs : List Byte} (h : Loose false (oneOf t).env lim d t bs) :
    Loose false (oneOf t).env lim (.record [d]) (oneOf t).root bs :=
  ⟨qOnly, _, _, rfl, rfl, rfl, _, [], bs, [], rfl, h, ⟨rfl, rfl⟩, by simp⟩

theorem oneOf_enc {t : Ty} {d : Datum} {bs : List Byte} (h : Enc (oneOf t).env (.record [d]) (oneOf t).root bs) :
    Enc (oneOf t).env d t bs := by
  obtain ⟨q, df, fs, h1, h2, h3, f, fs', e, bs', rfl, h5, ⟨rfl, rfl⟩, rfl⟩ := h
  obtain ⟨rfl, rfl⟩ := one_find h2
  cases h3
  rwa [List.append_nil]

/-- C83: the long 5 in two octets instead of one. -/
theorem overlong_accepted : TakenAnyway (oneOf .long) [0x8a, 0x00] (.record [.long 5]) :=
  takenAnyway_of (d := .record [.long 5]) (oneOf_wellFormed (by decide +kernel))
    (oneOf_loose ⟨rfl, by simp [Marked], by decide +kernel⟩)
    (fun h => by have := (oneOf_enc h).2; revert this; decide +kernel) rfl (by simp)

/-- C83: a number too large for an int; it is cut to 32 bits. -/
theorem int_overflow_accepted : TakenAnyway (oneOf .int) [0x82, 0x80, 0x80, 0x80, 0x20] (.record [.int 1]) :=
  takenAnyway_of (d := .record [.int 1]) (oneOf_wellFormed (by decide +kernel))
    (oneOf_loose ⟨rfl, 4294967297, ⟨by simp [Marked], by decide +kernel⟩, by decide +kernel⟩)
    (fun h => by have := (oneOf_enc h).2; revert this; decide +kernel) rfl (by simp)

/-- C83: an octet that is neither 0 nor 1 for a Boolean. -/
theorem other_bool_accepted : TakenAnyway (oneOf .bool) [7] (.record [.bool false]) :=
  takenAnyway_of (d := .record [.bool false]) (oneOf_wellFormed (by decide +kernel))
    (oneOf_loose ⟨rfl, .inl ⟨7, rfl, by decide⟩⟩)
    (fun h => by have := (oneOf_enc h).2; revert this; decide +kernel) rfl (by simp)

/-- C83: a block that says it has 4 octets and has one. -/
theorem block_size_unchecked : TakenAnyway (oneOf (.array .int)) [0x01, 0x08, 0x02, 0x00] (.record [.array [.int 1]]) := by
  refine takenAnyway_of (d := .record [.array [.int 1]]) (oneOf_wellFormed (by decide +kernel))
    (oneOf_loose ⟨.int, [[2]], rfl, ⟨[2], [], rfl, ⟨rfl, 1, ⟨by simp [Marked], by decide +kernel⟩, by decide +kernel⟩, rfl⟩, ?_⟩)
    (fun h => ?_) rfl (by simp)
  · have := SomeBlocks.sized (lim := 1000) (first := true) (c := [1]) (n := 4) (s := [8]) (es := [[2]]) (rest := []) (bs := [0])
      (by simp) ⟨by simp [Marked], by decide +kernel⟩ ⟨by simp [Marked], by decide +kernel⟩ (by decide)
      (.done ⟨by simp [Marked], by decide +kernel⟩)
    exact this
  · obtain ⟨item, es, h1, h2, h3⟩ := oneOf_enc h
    cases h1
    obtain ⟨e, es', rfl, h4, h5⟩ := h2
    cases (h5 : es' = [])
    have h4 := h4.2
    rw [show encLong (BitVec.toInt (1 : BitVec 32)) = [2] by decide +kernel] at h4
    subst h4
    generalize hx : [[(2 : Byte)]] = xs at h3
    generalize hy : [(0x01 : Byte), 0x08, 0x02, 0x00] = ys at h3
    cases h3 with
    | done => cases hx
    | counted es rest bs hne hb =>
      have : es.length = 1 ∧ rest = [] := by
        have := congrArg List.length hx
        simp at this
        have : es.length ≠ 0 := by simpa using hne
        refine ⟨by omega, List.length_eq_zero_iff.1 (by omega)⟩
      rw [this.1] at hy
      rw [show encLong ((1 : Nat) : Int) = [2] by decide +kernel] at hy
      simp at hy
    | sized es rest bs hne hb =>
      have : es.length = 1 ∧ rest = [] := by
        have := congrArg List.length hx
        simp at this
        have : es.length ≠ 0 := by simpa using hne
        refine ⟨by omega, List.length_eq_zero_iff.1 (by omega)⟩
      rw [this.2, List.append_nil] at hx
      rw [← hx] at hy
      rw [show encLong (-(([[(2 : Byte)]].length : Nat) : Int)) = [1] by decide +kernel,
        show encLong (([[(2 : Byte)]].flatten.length : Nat) : Int) = [2] by decide +kernel] at hy
      simp at hy

end
end Verif.Props
