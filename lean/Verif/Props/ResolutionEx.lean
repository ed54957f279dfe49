import Verif.Props.Resolution
/-
That the theorems of Props/Resolution apply, and where the code departs from Avro's rules.
-/
namespace Verif.Props
open Verif
set_option linter.unusedVariables false
set_option linter.unusedSimpArgs false

theorem reading_of {w r : Schema} {d : Datum} {e : List Byte} (k : Bool) (hs : suitedB w r = true)
    (hw : withinB 1000 d = true) (he : encode w.env d w.root = some e) (rest : List Byte) :
    Reading (demo k) List.flatten w r d [e, rest] rest where
  suited := suited_of hs
  delivers := demo_delivers k
  lim := by show 1000 < 2 ^ 63; decide
  within := within_of hw
  enc := ⟨e, encode_enc he, by simp⟩

theorem value_exists {w r : Schema} {d : Datum} {rd : List (List Byte)} {rest : List Byte} {v : Val}
    {k : Bool} (h : Reading (demo k) List.flatten w r d rd rest) {n : Nat}
    (hc : (compileFuel n Orders.id false w r).isOk = true) (hv : resolve Datum.skippable (fun _ => .int 7) w.env r.env d
      w.root r.root = some v) : ∃ rd', Deserializes (demo k) w r rd (.value (rootVal v) rd') := by
  obtain ⟨prog, hp⟩ := compiles_of hc
  obtain ⟨rd', h1, -⟩ := outcome_value h.suited h.delivers (σ := demo k) hp h.reads hv
  exact ⟨rd', h1⟩

instance (we re : Env) (w r : Ty) : Decidable (SameTypeName we re w r) := inferInstanceAs (Decidable (_ = _))

def qE2 : QName := ⟨"ex".toList, "Suit".toList⟩
def qP : QName := ⟨"ex".toList, "P".toList⟩
def fld (n : String) (t : Ty) : Field := { name := n.toList, ty := t }

def wideFields : List Field :=
  [fld "a" .int, fld "b" .long, fld "c" .float, fld "s" .string, fld "y" .bytes, fld "e" (.ref qE2), fld "m" (.map .int),
   fld "u" (.union [.int, .string]), fld "n" .int, fld "e2" (.ref qE2)]
/-- A writer -/
def wide : Schema :=
  { env := [(qE2, { name := qE2, kind := .enum ["A".toList, "B".toList, "C".toList] [] }),
            (qP, { name := qP, kind := .record wideFields })],
    root := .ref qP }
def wideFieldsR : List Field :=
  [fld "m" (.map .long), fld "e" (.ref qE2), fld "b" .double, fld "a" .float, fld "c" .double, fld "s" .bytes,
   fld "y" .string, fld "u" (.union [.null, .bytes, .double, .string]),
   { name := "t".toList, aliases := ["n".toList], ty := .union [.string, .long] },
   { name := "x".toList, ty := .int, dflt := some (.num 7) }, fld "e2" (.ref qE2)]
/-- and a reader. -/
def wideR : Schema :=
  { env := [(qE2, { name := qE2, kind := .enum ["C".toList, "Z".toList, "A".toList] "Z".toList }),
            (qP, { name := qP, kind := .record wideFieldsR })],
    root := .ref qP }
def wideDatum : Datum := .record [.int (BitVec.ofInt 32 (-3)), .long 9007199254740993, .float 0x3fc00000,
  .string (txt "hi"), .bytes [200, 1], .enum 2, .map [(txt "k", .int 1), (txt "j", .int 5), (txt "k", .int 2)],
  .union 1 (.string (txt "q")), .int 8, .enum 1]
def wideVal : Val := .record [.map [(txt "j", .long 5), (txt "k", .long 2)], .enum 0, .double 0x4340000000000000,
  .float 0xc0400000, .double 0x3ff8000000000000, .bytes (txt "hi"), .string [200, 1],
  .union 3 (some (.string (txt "q"))), .union 1 (some (.long 8)), .int 7, .enum 1]

def wideBytes : List Byte :=
  [5, 0x82, 0x80, 0x80, 0x80, 0x80, 0x80, 0x80, 0x20, 0, 0, 0xc0, 0x3f, 4, 0x68, 0x69, 4, 200, 1, 4,
   6, 2, 0x6b, 2, 2, 0x6a, 10, 2, 0x6b, 4, 0, 2, 2, 0x71, 16, 2]

theorem wide_reading : Reading (demo true) List.flatten wide wideR wideDatum [wideBytes, [7]] [7] :=
  reading_of true (by decide +kernel) (by decide +kernel) (by decide +kernel) _
theorem wide_compiles : (compileFuel 12 Orders.id false wide wideR).isOk = true := by decide +kernel
theorem wide_value : ∃ rd', Deserializes (demo true) wide wideR [wideBytes, [7]] (.value wideVal rd') :=
  value_exists (v := wideVal) wide_reading wide_compiles (by with_unfolding_all rfl)

theorem wide_at {i j : Nat} {x : Datum} {wf rf : Field} (hw : wideFields[i]? = some wf) (hr : wideFieldsR[j]? = some rf)
    (hm : matchedB wideFields wideFieldsR i j = true)
    (hd : (match wideDatum with | .record ds => ds[i]? | _ => none) = some x) :
    Sees wide.env wideR.env wideDatum wide.root wideR.root [.field j] x wf.ty rf.ty :=
  .field (wd := { name := qP, kind := .record wideFields }) (rd := { name := qP, kind := .record wideFieldsR })
    rfl rfl rfl rfl (matched_of hw hr hm) hd .here

/-- The int -3 becomes the float -3. -/
example : ∃ v, wideVal.at [.field 3] = some v ∧ Promotes (.int (BitVec.ofInt 32 (-3))) .int .float v :=
  let ⟨_, h⟩ := wide_value
  promotion wide_reading h (wide_at (i := 0) (j := 3) rfl rfl (by decide +kernel) rfl) (by simp [promotions, fld])
/-- The long 2 ^ 53 + 1 becomes the nearest double with even fraction, 2 ^ 53. -/
example : ∃ v, wideVal.at [.field 2] = some v ∧ Promotes (.long 9007199254740993) .long .double v :=
  let ⟨_, h⟩ := wide_value
  promotion wide_reading h (wide_at (i := 1) (j := 2) rfl rfl (by decide +kernel) rfl) (by simp [promotions, fld])
/-- An int in a map. -/
example : ∃ v, wideVal.at [.field 0, .key (txt "k")] = some v ∧ Promotes (.int 2) .int .long v :=
  let ⟨_, h⟩ := wide_value
  promotion wide_reading h
    (.field (wd := { name := qP, kind := .record wideFields }) (rd := { name := qP, kind := .record wideFieldsR })
      rfl rfl rfl rfl (matched_of (i := 6) (j := 0) rfl rfl (by decide +kernel)) rfl
      (.entry (w := .int) (r := .long) (d := .int 2) (by with_unfolding_all rfl) .here)) (by simp [promotions])
example : wideVal.at [.field 5] = some (.bytes (txt "hi")) :=
  let ⟨_, h⟩ := wide_value
  string_as_bytes wide_reading h (wide_at (i := 3) (j := 5) rfl rfl (by decide +kernel) rfl)
example : wideVal.at [.field 6] = some (.string [200, 1]) :=
  let ⟨_, h⟩ := wide_value
  bytes_as_string wide_reading h (wide_at (i := 4) (j := 6) rfl rfl (by decide +kernel) rfl)
/-- The last of the two entries for "k". -/
example : ∃ m, wideVal.at [.field 0] = some (.map m) ∧ ∃ y, mapGet m (txt "k") = some y ∧
    resolve (fun _ => true) (demo true).dv wide.env wideR.env (.int 2) .int .long = some y := by
  obtain ⟨_, h⟩ := wide_value
  obtain ⟨m, h1, h2⟩ := last_key_wins wide_reading h (wide_at (i := 6) (j := 0) rfl rfl (by decide +kernel) rfl)
  exact ⟨m, h1, (h2 (txt "k")).2 _ (by with_unfolding_all rfl)⟩
example : ∃ (vs : List Val) (y : Val), wideVal = .record vs ∧ vs[8]? = some y ∧
    resolve (fun _ => true) (demo true).dv wide.env wideR.env (.int 8) .int (.union [.string, .long]) = some y := by
  obtain ⟨_, h⟩ := wide_value
  obtain ⟨wd, rrd, wfs, rfs, vs, h1, h2, h3, h4, h5, h6, h7, h8⟩ := fields_by_name wide_reading h (p := []) .here
  cases h1; cases h2; cases h3; cases h4
  obtain ⟨x, y, h9, h10, h11⟩ := h7 8 8 _ _ (matched_of rfl rfl (by decide +kernel))
  cases h9
  exact ⟨vs, y, by simpa [Val.at] using h5, h10, h11⟩
/-- Symbol C, the writer's third, is the reader's first; B is unknown to the reader and becomes Z. -/
example : ∃ n, wideVal.at [.field 1] = some (.enum n) ∧ IsSymbol ["C".toList, "Z".toList, "A".toList] n "C".toList :=
  let ⟨_, h⟩ := wide_value
  symbols_by_name wide_reading (i := 2) (s := "C".toList) (wide_at (i := 5) (j := 1) rfl rfl (by decide +kernel) rfl) rfl rfl rfl rfl (by decide) (by decide)
    rfl (o := some "C".toList) (.same (by decide)) _ _ h
example : ∃ n, wideVal.at [.field 10] = some (.enum n) ∧ IsSymbol ["C".toList, "Z".toList, "A".toList] n "Z".toList :=
  let ⟨_, h⟩ := wide_value
  symbols_by_name wide_reading (i := 1) (s := "B".toList) (wide_at (i := 9) (j := 10) rfl rfl (by decide +kernel) rfl) rfl rfl rfl rfl (by decide) (by decide)
    rfl (o := some "Z".toList) (.default (by decide) (by decide) (by decide)) _ _ h
/-- The string goes to the member "string", although "bytes" can read it and comes first. -/
example : ∃ y, wideVal.at [.field 7] = some (.union 3 (some y)) ∧
    resolve (fun _ => true) (demo true).dv wide.env wideR.env (.string (txt "q")) .string .string = some y :=
  let ⟨_, h⟩ := wide_value
  union_branch wide_reading h (j := 3) (wide_at (i := 7) (j := 7) rfl rfl (by decide +kernel) rfl) rfl (by simp)
    (.inl ⟨rfl, by decide +kernel, by
      intro i u hi hu
      match i, hi with
      | 0, _ => cases hu; decide +kernel
      | 1, _ => cases hu; decide +kernel
      | 2, _ => cases hu; decide +kernel⟩)
/-- An int read as `["string", "long"]`. -/
example : ∃ j t' y, First (CanRead wide.env wideR.env .int) [.string, .long] j t' ∧
    wideVal.at [.field 8] = some (.union (BitVec.ofInt 64 j) (some y)) ∧
    resolve (fun _ => true) (demo true).dv wide.env wideR.env (.int 8) .int t' = some y :=
  let ⟨_, h⟩ := wide_value
  plain_into_union wide_reading h (wide_at (i := 8) (j := 8) rfl rfl (by decide +kernel) rfl) (by simp [fld]) (by simp [fld])
    (by simp)

/-! ### Two readers; failures -/

/-- Another reader: other fields around "b", other order. -/
def narrowFieldsR : List Field :=
  [{ name := "bb".toList, aliases := ["b".toList], ty := .double }, fld "a" .long]
def narrowR : Schema := { env := [(qP, { name := qP, kind := .record narrowFieldsR })], root := .ref qP }
/-- the writer without the map, which cannot be dropped -/
def thinFields : List Field := [fld "a" .int, fld "b" .long, fld "s" .string]
def thin : Schema := { env := [(qP, { name := qP, kind := .record thinFields })], root := .ref qP }
def thinFieldsR : List Field := [fld "s" .bytes, { name := "x".toList, ty := .int, dflt := some (.num 7) }, fld "b" .double]
def thinR : Schema := { env := [(qP, { name := qP, kind := .record thinFieldsR })], root := .ref qP }
def thinDatum : Datum := .record [.int 1, .long 2, .string (txt "z")]
def thinBytes : List Byte := [2, 4, 2, 0x7a]
theorem thin_reading : Reading (demo true) List.flatten thin thinR thinDatum [thinBytes, []] [] :=
  reading_of true (by decide +kernel) (by decide +kernel) (by decide +kernel) _
theorem thin_reading2 : Reading (demo true) List.flatten thin narrowR thinDatum [thinBytes, []] [] :=
  reading_of true (by decide +kernel) (by decide +kernel) (by decide +kernel) _
theorem thin_value : ∃ rd', Deserializes (demo true) thin thinR [thinBytes, []]
    (.value (.record [.bytes (txt "z"), .int 7, .double 0x4000000000000000]) rd') :=
  value_exists (n := 9) (v := .record _) thin_reading (by decide +kernel) (by with_unfolding_all rfl)
theorem thin_value2 : ∃ rd', Deserializes (demo true) thin narrowR [thinBytes, []]
    (.value (.record [.double 0x4000000000000000, .long 1]) rd') :=
  value_exists (n := 9) (v := .record _) thin_reading2 (by decide +kernel) (by with_unfolding_all rfl)

/-- "b" and the renamed "bb". -/
example : ∃ v, (Val.record [.bytes (txt "z"), .int 7, .double 0x4000000000000000]).at [.field 2] = some v ∧
    (Val.record [.double 0x4000000000000000, .long 1]).at [.field 0] = some v :=
  let ⟨_, h1⟩ := thin_value
  let ⟨_, h2⟩ := thin_value2
  renamed_field (w := thin) (i := 1) thin_reading thin_reading2 h1 h2 rfl rfl rfl rfl rfl rfl rfl rfl rfl rfl
    (matched_of rfl rfl (by decide +kernel)) rfl (matched_of rfl rfl (by decide +kernel)) ⟨by decide, by decide⟩ rfl
    (S := fun _ => False) ⟨fun q h => h.elim, fun q d fs h => h.elim⟩ trivial

/-- Everything dropped is flat, so the outcome is what Avro says. -/
example : ∃ rd', Deserializes (demo true) thin thinR [thinBytes, []]
    (.value (.record [.bytes (txt "z"), .int 7, .double 0x4000000000000000]) rd') ∧ rd'.flatten = [] := by
  obtain ⟨prog, hc⟩ := compiles_of (n := 9) (w := thin) (r := thinR) (by decide +kernel)
  have := resolution_exact thin_reading (by
    intro q q' wd rd wfs rfs h1 h2 h3 h4 wf hwf _
    have a := Env.find_mem h1
    simp [thin] at a
    obtain ⟨rfl, rfl⟩ := a
    cases h3
    simp only [thinFields, List.mem_cons, List.not_mem_nil, or_false] at hwf
    rcases hwf with rfl | rfl | rfl
    · exact .int
    · exact .long
    · exact .string) (σ := demo true) hc
  rw [show resolve (fun _ => true) (demo true).dv thin.env thinR.env thinDatum thin.root thinR.root =
    some (.record [.bytes (txt "z"), .int 7, .double 0x4000000000000000]) by with_unfolding_all rfl] at this
  exact this

/-- A reader without default for the symbols it does not know. -/
def strictW : Schema :=
  { env := [(qE2, { name := qE2, kind := .enum ["A".toList, "B".toList] [] }),
            (qP, { name := qP, kind := .record [fld "e" (.ref qE2), fld "u" (.union [.int, .string])] })],
    root := .ref qP }
def strictR : Schema :=
  { env := [(qE2, { name := qE2, kind := .enum ["A".toList] [] }),
            (qP, { name := qP, kind := .record [fld "e" (.ref qE2), fld "u" (.union [.long, .null])] })],
    root := .ref qP }

theorem strict_reading (i : Int) (j : Nat) (x : Datum) (e : List Byte) (hw : withinB 1000 (.record [.enum i, .union j x]) = true)
    (h : encode strictW.env (.record [.enum i, .union j x]) strictW.root = some e) :
    Reading (demo true) List.flatten strictW strictR (.record [.enum i, .union j x]) [e, []] [] :=
  reading_of true (by decide +kernel) hw h _

example : Fails (demo true) strictW strictR [[2, 0, 2], []] :=
  symbols_by_name (i := 1) (s := "B".toList) (strict_reading 1 0 (.int 1) [2, 0, 2] (by decide +kernel) (by decide +kernel))
    (.field (wd := { name := qP, kind := .record [fld "e" (.ref qE2), fld "u" (.union [.int, .string])] })
      (rd := { name := qP, kind := .record [fld "e" (.ref qE2), fld "u" (.union [.long, .null])] })
      rfl rfl rfl rfl (matched_of (i := 0) (j := 0) rfl rfl (by decide +kernel)) rfl .here)
    rfl rfl rfl rfl (by decide) (by decide) rfl (o := none) (.nothing (by decide) (.inl rfl))

example : Fails (demo true) strictW strictR [[0, 2, 2, 0x71], []] :=
  union_no_branch (strict_reading 0 1 (.string (txt "q")) [0, 2, 2, 0x71] (by decide +kernel) (by decide +kernel))
    (.field (wd := { name := qP, kind := .record [fld "e" (.ref qE2), fld "u" (.union [.int, .string])] })
      (rd := { name := qP, kind := .record [fld "e" (.ref qE2), fld "u" (.union [.long, .null])] })
      rfl rfl rfl rfl (matched_of (i := 1) (j := 1) rfl rfl (by decide +kernel)) rfl .here)
    rfl (by simp) (by
      intro t' ht'
      simp at ht'
      rcases ht' with rfl | rfl
      · exact ⟨by decide +kernel, by rw [← readable_iff]; decide +kernel⟩
      · exact ⟨by decide +kernel, by rw [← readable_iff]; decide +kernel⟩)

/-! ### Where the code departs from the rules -/

/-- C22: a dropped array with items in it: Avro's rules give a record, decoding fails
(`HintSize` panics on the record's target, templates/record.go:150). -/
theorem dropped_array_fails : ∃ (w r : Schema) (d : Datum) (rd : List (List Byte)),
    Reading (demo true) List.flatten w r d rd [] ∧
    (∃ v, resolve (fun _ => true) (demo true).dv w.env r.env d w.root r.root = some v) ∧
    (∃ prog, compile (demo true).ord false w r = .ok prog) ∧ Fails (demo true) w r rd := by
  let w : Schema := one qP [fld "l" (.array .int), fld "n" .int]
  let r : Schema := one qP [fld "n" .int]
  have h : Reading (demo true) List.flatten w r (.record [.array [.int 1], .int 5]) [[2, 2, 0, 10], []] [] :=
    reading_of true (by decide +kernel) (by decide +kernel) (by decide +kernel) _
  refine ⟨w, r, _, _, h, ⟨.record [.int 5], by with_unfolding_all rfl⟩, compiles_of (n := 9) (by decide +kernel), ?_⟩
  exact h.fails (by with_unfolding_all rfl)

/-- C31: an alias takes precedence over the name of a later field: the data of the writer's
"b" ends up in the reader's "a", the reader's "b" gets its default. -/
theorem alias_before_name : ∃ (w r : Schema) (d : Datum) (rd : List (List Byte)),
    Reading (demo true) List.flatten w r d rd [] ∧
    w.env.find qP = some { name := qP, kind := .record [fld "a" .int, fld "b" .int] } ∧
    r.env.find qP = some { name := qP, kind := .record [{ name := "a".toList, aliases := ["b".toList], ty := .int },
      { name := "b".toList, ty := .int, dflt := some (.num 7) }] } ∧
    d = .record [.int 1, .int 2] ∧
    ∃ rd', Deserializes (demo true) w r rd (.value (.record [.int 2, .int 7]) rd') := by
  let w : Schema := one qP [fld "a" .int, fld "b" .int]
  let r : Schema := one qP [{ name := "a".toList, aliases := ["b".toList], ty := .int },
    { name := "b".toList, ty := .int, dflt := some (.num 7) }]
  have h : Reading (demo true) List.flatten w r (.record [.int 1, .int 2]) [[2, 4], []] [] :=
    reading_of true (by decide +kernel) (by decide +kernel) (by decide +kernel) _
  exact ⟨w, r, _, _, h, rfl, rfl, rfl, value_exists (n := 9) (v := .record _) h (by decide +kernel) (by with_unfolding_all rfl)⟩

end Verif.Props
