import Verif.Container.FileProof
import Verif.Container.Writer
/-
Opening a container file: `NewReader`, v10/container/reader.go:26-57.
-/
namespace Verif.Ocf
open Verif
set_option linter.unusedSimpArgs false
set_option linter.unusedVariables false

/-- A value of the metadata, `header.Meta[k]`, reader.go:36, 42. -/
def metaGet (es : List (List Byte × Val)) (k : List Byte) : Option (List Byte) :=
  match mapGet es k with
  | some (.bytes x) => some x
  | _ => none

/-- The magic that is refused, reader.go:32. -/
def badMagic : List Byte := ascii "obj" ++ [1]

/-- What `NewReader` makes of the header, reader.go:32-56; nothing if it returns an error. -/
def openHeader {R : Type} (v : Val) (rd : R) : Option (Reader R) :=
  match v with
  | .record [.fixed m, .map es, .fixed sync] =>
    if m = badMagic then none
    else match metaGet es keySchema with
      | none => none
      | some schema => some ⟨(metaGet es keyCodec).getD codecNull, rd, none, schema, sync⟩
  | _ => none

/-- `NewReader(r)`, reader.go:26-57: the reader, or nothing if an error is returned. -/
inductive NewReader {R : Type} (σ : Setting R) (rd : R) : Option (Reader R) → Prop
  | failed : Props.Fails σ headerSchema headerSchema rd → NewReader σ rd none
  | header {v rd'} : Deserializes σ headerSchema headerSchema rd (.value v rd') → NewReader σ rd (openHeader v rd')

/-- The entries as data and as values. -/
def metaData (es : List (List Byte × List Byte)) : List (List Byte × Datum) := es.map fun e => (e.1, .bytes e.2)
def metaVals (es : List (List Byte × List Byte)) : List (List Byte × Val) := es.map fun e => (e.1, .bytes e.2)

theorem encEntries_meta : ∀ es, EncEntries headerSchema.env (metaData es) .bytes (es.map Spec.Ocf.entry)
  | [] => by simp [metaData, EncEntries]
  | (k, v) :: es => by
    have := encEntries_meta es
    simp only [metaData, List.map_cons, EncEntries]
    refine ⟨Spec.Ocf.sized v, _, ?_, ?_, this⟩
    · simp [Spec.Ocf.entry, Spec.Ocf.sized]
    · rw [Enc]; exact ⟨rfl, rfl⟩

theorem entriesWithin_meta {lim : Nat} : ∀ {es : List (List Byte × List Byte)},
    (∀ e ∈ es, e.1.length ≤ 2147483647 ∧ e.2.length ≤ 2147483647) → Datum.entriesWithin lim (metaData es)
  | [], _ => by simp [metaData, Datum.entriesWithin]
  | (k, v) :: es, h => by
    have := entriesWithin_meta (lim := lim) (es := es) fun e he => h e (by simp [he])
    have h0 := h (k, v) (by simp)
    simp only [metaData, List.map_cons, Datum.entriesWithin, Datum.within]
    exact ⟨h0.1, h0.2, this⟩

theorem resolveEntries_meta (drop dv we re) : ∀ es,
    resolveEntries drop dv we re (metaData es) .bytes .bytes = some (metaVals es)
  | [] => by simp [metaData, metaVals, resolveEntries]
  | (k, v) :: es => by
    have := resolveEntries_meta drop dv we re es
    simp only [metaData, metaVals, List.map_cons, resolveEntries, resolve, intoReader, octetsAs]
    simp only [metaData, metaVals] at this
    rw [this]; rfl

/-- The header as a datum. -/
def headerDatum (m : List Byte) (es : List (List Byte × List Byte)) (sync : List Byte) : Datum :=
  .record [.fixed m, .map (metaData es), .fixed sync]

theorem header_enc {m es sync h} (hm : m.length = 4) (hs : sync.length = 16) (hh : Spec.Ocf.Header m es sync h) :
    Enc headerSchema.env (headerDatum m es sync) headerSchema.root h := by
  obtain ⟨b, h1, rfl⟩ := hh
  unfold headerDatum
  rw [Enc]
  refine ⟨qHeader, ⟨qHeader, [], .record headerFields⟩, headerFields, rfl, by with_unfolding_all rfl, rfl, ?_⟩
  rw [EncFields]
  refine ⟨_, _, m, b ++ sync, rfl, ?_, ?_, by simp⟩
  · rw [Enc, hm]; exact ⟨qMagic, ⟨qMagic, [], .fixed 4⟩, rfl, by with_unfolding_all rfl, rfl, rfl⟩
  rw [EncFields]
  refine ⟨_, _, b, sync, rfl, ?_, ?_, rfl⟩
  · rw [Enc]; exact ⟨.bytes, _, rfl, encEntries_meta es, h1⟩
  rw [EncFields]
  refine ⟨_, _, sync, [], rfl, ?_, ?_, by simp⟩
  · rw [Enc, hs]; exact ⟨qSync, ⟨qSync, [], .fixed 16⟩, rfl, by with_unfolding_all rfl, rfl, rfl⟩
  rw [EncFields]; exact ⟨rfl, rfl⟩

theorem header_within {lim : Nat} {m es sync} (hl : es.length ≤ lim)
    (he : ∀ e ∈ es, e.1.length ≤ 2147483647 ∧ e.2.length ≤ 2147483647) : (headerDatum m es sync).within lim := by
  simp only [headerDatum, Datum.within, Datum.allWithin, metaData, List.length_map, true_and, and_true]
  exact ⟨hl, entriesWithin_meta he⟩

theorem header_resolve (dv : Field → Val) (m es sync) :
    resolve Datum.skippable dv headerSchema.env headerSchema.env (headerDatum m es sync) headerSchema.root headerSchema.root
      = some (.record [.fixed m, .map (mapOf (metaVals es)), .fixed sync]) := by
  have h := resolveEntries_meta Datum.skippable dv headerSchema.env headerSchema.env es
  have e1 : headerSchema.env.find qHeader = some ⟨qHeader, [], .record headerFields⟩ := by with_unfolding_all rfl
  have e2 : headerSchema.env.find qMagic = some ⟨qMagic, [], .fixed 4⟩ := by with_unfolding_all rfl
  have e3 : headerSchema.env.find qSync = some ⟨qSync, [], .fixed 16⟩ := by with_unfolding_all rfl
  have r1 : Def.readableBy ⟨qHeader, [], .record headerFields⟩ ⟨qHeader, [], .record headerFields⟩ = true := by decide +kernel
  have r2 : Def.readableBy ⟨qMagic, [], .fixed 4⟩ ⟨qMagic, [], .fixed 4⟩ = true := by decide +kernel
  have r3 : Def.readableBy ⟨qSync, [], .fixed 16⟩ ⟨qSync, [], .fixed 16⟩ = true := by decide +kernel
  have f1 : fieldByName headerFields "magic".toList = some (0, { name := "magic".toList, ty := .ref qMagic }) := by
    with_unfolding_all rfl
  have f2 : fieldByName headerFields "meta".toList = some (1, { name := "meta".toList, ty := .map .bytes }) := by
    with_unfolding_all rfl
  have f3 : fieldByName headerFields "sync".toList = some (2, { name := "sync".toList, ty := .ref qSync }) := by
    with_unfolding_all rfl
  have g1 : Ty.readableBy headerSchema.env headerSchema.env (.ref qMagic) (.ref qMagic) = true := by decide +kernel
  have g2 : Ty.readableBy headerSchema.env headerSchema.env (.map .bytes) (.map .bytes) = true := by decide +kernel
  have g3 : Ty.readableBy headerSchema.env headerSchema.env (.ref qSync) (.ref qSync) = true := by decide +kernel
  have hf : resolveFields Datum.skippable dv headerSchema.env headerSchema.env
      [.fixed m, .map (metaData es), .fixed sync] headerFields headerFields [none, none, none] =
      some [some (.fixed m), some (.map (mapOf (metaVals es))), some (.fixed sync)] := by
    conv => lhs; arg 6; unfold headerFields
    simp only [resolveFields, f1, f2, f3, g1, g2, g3, if_true, resolve, intoReader, defAs, e2, e3, r2, r3, fixedAs, h,
      Option.map_some, List.set]
  show resolve _ _ _ _ (.record _) (.ref qHeader) (.ref qHeader) = _
  simp only [resolve, intoReader, defAs, e1, r1, if_true]
  rw [show List.replicate headerFields.length (none : Option Val) = [none, none, none] from rfl, hf]
  rfl

theorem metaVals_get (k : List Byte) : ∀ es : List (List Byte × List Byte),
    mapGet (metaVals es) k = (mapGet es k).map .bytes
  | [] => rfl
  | (a, v) :: es => by
    have := metaVals_get k es
    simp only [metaVals, List.map_cons, mapGet] at this ⊢
    split
    · rfl
    · exact this

theorem metaVals_nodup {es : List (List Byte × List Byte)} (hn : (es.map (·.1)).Nodup) :
    ((metaVals es).map (·.1)).Nodup := by
  simpa [metaVals, Function.comp_def] using hn

theorem metaGet_eq {es : List (List Byte × List Byte)} (hn : (es.map (·.1)).Nodup) (k : List Byte) :
    metaGet (mapOf (metaVals es)) k = mapGet es k := by
  unfold metaGet
  rw [mapGet_mapOf, filter_key_nodup (metaVals_nodup hn), metaVals_get]
  cases mapGet es k <;> rfl

/-- A header, whatever its magic and its metadata. -/
theorem newReader_header {R : Type} {σ : Setting R} {view : R → List Byte} (hd : σ.ro.Delivers view) (hl : σ.lim < 2 ^ 63)
    {m es sync h rest} (hm : m.length = 4) (hs : sync.length = 16) (hn : (es.map (·.1)).Nodup) (hes : es.length ≤ σ.lim)
    (he : ∀ e ∈ es, e.1.length ≤ 2147483647 ∧ e.2.length ≤ 2147483647) (hh : Spec.Ocf.Header m es sync h)
    {rd : R} (hin : view rd = h ++ rest) : ∃ rd', view rd' = rest ∧ NewReader σ rd
      (if m = badMagic then none else (mapGet es keySchema).map fun schema =>
        ⟨(mapGet es keyCodec).getD codecNull, rd', none, schema, sync⟩) := by
  obtain ⟨prog, hc⟩ := headerSchema_wellFormed.compiles σ.ord
  obtain ⟨rd', h1, h2⟩ := outcome_value headerSchema_wellFormed.suited hd hc
    (hin ▸ reads_enc hl (header_enc hm hs hh) (header_within hes he) rest) (header_resolve σ.dv m es sync)
  refine ⟨rd', h2, ?_⟩
  have := NewReader.header h1
  simp only [rootVal, openHeader, metaGet_eq hn] at this
  cases hk : mapGet es keySchema with
  | none => rw [hk] at this; simpa using this
  | some x => rw [hk] at this; simpa using this

/-- The outcome is unique. -/
theorem NewReader.det {R : Type} {σ : Setting R} {rd : R} {a b} (ha : NewReader σ rd a) (hb : NewReader σ rd b) : a = b := by
  cases ha with
  | failed ha => cases hb with
    | failed => rfl
    | header hb => rcases ha with ha | ha <;> cases ha.det hb
  | header ha => cases hb with
    | failed hb => rcases hb with hb | hb <;> cases ha.det hb
    | header hb => cases ha.det hb; rfl

end Verif.Ocf
