import Verif.Props.Container
/-
Properties C39, C45, C47, C62, C63: container files written and read back.
-/
namespace Verif.Props
open Verif Verif.Ocf
set_option linter.unusedVariables false
set_option linter.unusedSimpArgs false

section
variable {W : Type} {E : WEnv W} {L : Libs} {viewW : W → List Byte} {R : Type} {σ : Setting R} {view : R → List Byte} {s : Schema}

/-- The metadata of a file that was written. -/
theorem names_written {es} (h : es.Perm [(keyCodec, E.codec), (keySchema, E.schema)]) (hc : E.codec.length ≤ 2147483647)
    (hs : E.schema.length ≤ 2147483647) : Names es E.schema E.codec where
  nodup := by
    have := (h.map (·.1)).nodup_iff.2 (show (List.map (·.1) [(keyCodec, E.codec), (keySchema, E.schema)]).Nodup by
      simp only [List.map_cons, List.map_nil]; decide +kernel)
    exact this
  schema := h.symm.subset (by simp)
  codec := .inl (h.symm.subset (by simp))
  small := by
    intro e he
    have hk1 : keyCodec.length ≤ 2147483647 := by decide +kernel
    have hk2 : keySchema.length ≤ 2147483647 := by decide +kernel
    have := h.subset he
    simp only [List.mem_cons, List.not_mem_nil, or_false] at this
    rcases this with rfl | rfl
    · exact ⟨hk1, hc⟩
    · exact ⟨hk2, hs⟩

/-- Values that can be written and read. -/
def Good (s : Schema) (lim : Nat) (x : MapOrder × Val) : Prop := HasTy s.env lim x.2 s.root ∧ x.2 ≠ .nil

theorem good_serializes (hl : σ.lim < 2 ^ 63) {x : MapOrder × Val} (hx : Good s σ.lim x) : serializes s x = true := by
  obtain ⟨d, e, h1, h2, h3, h4, h5⟩ := ser_enc s.env false x.1 hl x.2 s.root [] hx.1
  exact h4

theorem pairs_encoded {groups : List (List (MapOrder × Val))} {bs : List (Nat × List Byte)} {codec : List Byte}
    (h : Pairs (fun g b => Packs L codec (g.map (enc s)).flatten b.2) groups bs) :
    Pairs (fun g b => Packs L codec (g.map (·.1)).flatten b.2) (groups.map fun g => g.map fun x => (enc s x, x.2)) bs := by
  induction h with
  | nil => exact .nil
  | cons h _ ih =>
    refine .cons ?_ ih
    rw [List.map_map]
    exact h

/-- If the whole output has at most 2147483647 bytes, so do the blocks. -/
theorem written_fits {calls : List Call} {out : List Byte} {groups pend bs} (h : Written E L s calls out groups pend bs)
    (hsz : out.length ≤ 2147483647) : Fits bs := by
  intro b hb
  obtain ⟨g, _, h1, h2, h3, _⟩ := h.blocks.right b hb
  have hper := BitVec.toInt_lt (x := E.per)
  refine ⟨by simp at hper; omega, ?_⟩
  by_cases hc : calls = []
  · rw [(h.nothing hc).2] at hb; cases hb
  · obtain ⟨es, _, hh, _, rfl⟩ := h.file hc
    have := mem_flatten_le (f := Spec.Ocf.block syncMarker) hb
    simp only [List.length_append, Spec.Ocf.blocks] at hsz
    simp only [Spec.Ocf.block, Spec.Ocf.sized, List.length_append] at this
    omega

/-- C39: for every history of calls that ends with `Flush`, all records are in blocks, and reading
the output yields the records in order, then `io.EOF`. What is missing in comparison with C39 are
blocks of more than 2147483647 bytes, which are written but not read (`large_block_unreadable`),
and codecs that the reader does not know (`unknown_codec_unreadable`). `Good` excludes values that
are not of the Go type, and null in place of a record. -/
theorem container_roundtrip_partial (ho : E.o.Takes viewW) (hL : L.Inverse) (hk : Known E.codec)
    (hc : E.codec.length ≤ 2147483647) (hsc : E.schema.length ≤ 2147483647) (hs : WellFormed s)
    (hd : σ.ro.Delivers view) (hl : σ.lim < 2 ^ 63) (hl2 : 2 ≤ σ.lim)
    {calls : List Call} (hend : calls.getLast? = some .flush) (hv : ∀ x ∈ records calls, Good s σ.lim x)
    {w : W} (hw : viewW w = []) (hgood : (after E L s w calls).2.any writerError = false)
    (hsz : (viewW (after E L s w calls).1.w).length < 2 ^ 63) :
    ∃ groups bs, Written E L s calls (viewW (after E L s w calls).1.w) groups [] bs ∧
      (Fits bs → ∀ rd : R, view rd = viewW (after E L s w calls).1.w →
        ∃ c c', NewReader σ rd (some c) ∧ c.schema = E.schema ∧
          DecodesAll (σ.inside L) s s c ((records calls).map (·.2)) c' ∧
          (HasBytes σ s s → ReadError (σ.inside L) s s c' .eof)) := by
  obtain ⟨⟨groups, pend, bs, hwr⟩, _⟩ := written ho hL hk hc hsc s calls hw hgood hsz
  have hp : pend = [] := by
    have h1 := hwr.flushed hend
    rw [List.countP_eq_zero] at h1
    cases pend with
    | nil => rfl
    | cons x p => exact absurd (good_serializes hl (hv x (by rw [← hwr.order]; simp))) (h1 x (by simp))
  subst hp
  refine ⟨groups, bs, hwr, fun hfit rd hin => ?_⟩
  obtain ⟨es, h1, h2⟩ := hwr.file (by rintro rfl; cases hend)
  have hord := hwr.order
  rw [List.append_nil] at hord
  obtain ⟨c, c', a1, a2, a3, a4⟩ := container_read (L := L) (w := s) (r := s) hd hl (by decide +kernel)
    (names_written h1 hc hsc) (by rw [h1.length_eq]; exact hl2) h2 hfit
    (pairs_encoded (s := s) (hwr.blocks.mono fun g b h => h.2.2.2)) (by
      intro g hg x hx
      obtain ⟨g', hg', rfl⟩ := List.mem_map.1 hg
      obtain ⟨y, hy, rfl⟩ := List.mem_map.1 hx
      have := hv y (by rw [← hord]; exact List.mem_flatten.2 ⟨g', hg', hy⟩)
      exact readsTo_self hs hl y this.1 this.2) hin
  refine ⟨c, c', a1, a2, ?_, a4⟩
  have : (groups.map fun g => g.map fun x => (enc s x, x.2)).flatten.map (·.2) = (records calls).map (·.2) := by
    rw [← hord]
    simp [List.map_flatten, List.map_map, Function.comp_def]
  rw [← this]; exact a3

/-! ### C45 -/

/-- C45, the part that holds: after a `Flush` all records so far are safe, and remain readable
whatever is done after that: records that fail to serialize, and failures of the destination. -/
theorem earlier_records_survive_partial (ho : E.o.Takes viewW) (hL : L.Inverse) (hk : Known E.codec)
    (hc : E.codec.length ≤ 2147483647) (hsc : E.schema.length ≤ 2147483647) (hs : WellFormed s)
    (hd : σ.ro.Delivers view) (hl : σ.lim < 2 ^ 63) (hl2 : 2 ≤ σ.lim)
    {calls : List Call} (hend : calls.getLast? = some .flush) (hv : ∀ x ∈ records calls, Good s σ.lim x)
    {w : W} (hw : viewW w = []) (hgood : (after E L s w calls).2.any writerError = false)
    (hsz : (viewW (after E L s w calls).1.w).length < 2 ^ 63) :
    ∃ groups bs, Written E L s calls (viewW (after E L s w calls).1.w) groups [] bs ∧
      (Fits bs → ∀ (later : List Call) (rd : R), view rd = viewW (after E L s w (calls ++ later)).1.w →
        ∃ c c', NewReader σ rd (some c) ∧ DecodesAll (σ.inside L) s s c ((records calls).map (·.2)) c') := by
  obtain ⟨groups, bs, hwr, _⟩ := container_roundtrip_partial ho hL hk hc hsc hs hd hl hl2 hend hv hw hgood hsz
  refine ⟨groups, bs, hwr, fun hfit later rd hin => ?_⟩
  obtain ⟨es, h1, h2⟩ := hwr.file (by rintro rfl; cases hend)
  have hord := hwr.order
  rw [List.append_nil] at hord
  have hg : viewW (after E L s w calls).1.w <+: viewW (after E L s w (calls ++ later)).1.w := by
    unfold after
    rw [List.map_append, run_append]
    exact run_grows ho _ _
  obtain ⟨rest, hrest⟩ := hg
  obtain ⟨c, c', a1, a2, a3⟩ := container_beginning (L := L) (w := s) (r := s) hd hl (by decide +kernel)
    (names_written h1 hc hsc) (by rw [h1.length_eq]; exact hl2) h2 hfit
    (pairs_encoded (s := s) (hwr.blocks.mono fun g b h => h.2.2.2)) (by
      intro g hg x hx
      obtain ⟨g', hg', rfl⟩ := List.mem_map.1 hg
      obtain ⟨y, hy, rfl⟩ := List.mem_map.1 hx
      have := hv y (by rw [← hord]; exact List.mem_flatten.2 ⟨g', hg', hy⟩)
      exact readsTo_self hs hl y this.1 this.2) (by rw [hin]; exact hrest.symm)
  refine ⟨c, c', a1, ?_⟩
  have : (groups.map fun g => g.map fun x => (enc s x, x.2)).flatten.map (·.2) = (records calls).map (·.2) := by
    rw [← hord]
    simp [List.map_flatten, List.map_map, Function.comp_def]
  rw [← this]; exact a3
end

/-! ### Examples -/

/-- Libraries that do not compress. -/
def plainLibs : Libs where
  Flate := Unit
  flateInit := ()
  flateWrite _ p := ((), p)
  flateClose _ := []
  flateRead data := (if data = [] then [] else [data], .eof)
  snappyEncode x := x
  snappyDecode x := .ok x
  crc32 x := BitVec.ofNat 32 x.length

theorem plainLibs_inverse : plainLibs.Inverse where
  flate ps := by
    have h : ∀ (ps : Trace) (b : List Byte), (ps.foldl (fun c p => ((plainLibs.flateWrite c.1 p).1, c.2 ++ (plainLibs.flateWrite c.1 p).2))
        (plainLibs.flateInit, b)).2 = b ++ ps.flatten := by
      intro ps
      induction ps with
      | nil => intro b; simp
      | cons p ps ih =>
        intro b
        have := ih (b ++ p)
        simp only [List.foldl_cons, List.flatten_cons, ← List.append_assoc]
        exact this
    have h1 : flateStream plainLibs ps = ps.flatten := by
      unfold flateStream
      rw [h]
      show [] ++ ps.flatten ++ [] = _
      simp
    rw [h1]
    refine ⟨_, rfl, ?_⟩
    split
    · rename_i h2; rw [h2]; rfl
    · simp
  snappy x := rfl

/-- A writer for `sample`, with `per` records in a block, on a file that has room for 100000 bytes. -/
def demoWriter (codec : List Byte) (per : BitVec 64) : WEnv (List Byte) where
  o := boundedWriter 100000
  bw := false
  codec := codec
  per := per
  schema := ascii "the schema"
  mo := .id

def demoCalls : List Call :=
  [.record (.id, sampleVal), .record (.rev, leafVal), .flush, .flush, .record (.id, leafVal), .flush]

theorem demoCalls_good : ∀ x ∈ records demoCalls, Good sample 1000 x := by
  intro x hx
  simp only [demoCalls, records, List.filterMap_cons, List.filterMap_nil, List.mem_cons, List.not_mem_nil, or_false] at hx
  rcases hx with rfl | rfl | rfl
  · exact ⟨sampleVal_hasTy, by simp [sampleVal]⟩
  · exact ⟨leafVal_hasTy, by simp [leafVal]⟩
  · exact ⟨leafVal_hasTy, by simp [leafVal]⟩

theorem demo_known : Known codecDeflate := .inr (.inl rfl)

theorem sample_hasBytes (k : Bool) : HasBytes (demo k) sample sample :=
  ⟨_, _, readsTo_self sample_wellFormed (show 1000 < 2 ^ 63 by decide) (.id, leafVal) leafVal_hasTy (by simp [leafVal]), by decide +kernel⟩

theorem demoCalls_ok : (after (demoWriter codecDeflate 2) plainLibs sample [] demoCalls).2.any writerError = false := by
  decide +kernel

theorem demoCalls_size : (after (demoWriter codecDeflate 2) plainLibs sample [] demoCalls).1.w.length = 167 := by
  decide +kernel

/-- Two records per block; three records; four calls of `Flush`. All hypotheses are met, and the
records come back. -/
example : ∃ c c', NewReader (demo true) [(after (demoWriter codecDeflate 2) plainLibs sample [] demoCalls).1.w] (some c) ∧
    DecodesAll ((demo true).inside plainLibs) sample sample c [sampleVal, leafVal, leafVal] c' ∧
    ReadError ((demo true).inside plainLibs) sample sample c' .eof := by
  obtain ⟨groups, bs, h1, h2⟩ := container_roundtrip_partial (σ := demo true) (s := sample) (boundedWriter_takes 100000)
    plainLibs_inverse demo_known (by decide +kernel) (by decide +kernel) sample_wellFormed (demo_delivers true) (by decide)
    (by decide) (calls := demoCalls) rfl demoCalls_good (w := []) rfl demoCalls_ok
    (by rw [demoCalls_size]; decide) (E := demoWriter codecDeflate 2)
  obtain ⟨c, c', a1, _, a3, a4⟩ := h2 (written_fits h1 (by rw [demoCalls_size]; decide))
    [(after (demoWriter codecDeflate 2) plainLibs sample [] demoCalls).1.w] (by simp)
  exact ⟨c, c', a1, a3, a4 (sample_hasBytes true)⟩

/-- `flush_leaves_nothing`, `earlier_records_survive_partial` and `failing_destination`: a
destination that is full after 140 bytes. The first block is complete, the last call fails. -/
def smallWriter : WEnv (List Byte) := { demoWriter codecNull 2 with o := boundedWriter 140 }

def firstCalls : List Call := [.record (.id, sampleVal), .record (.rev, leafVal), .flush, .record (.id, leafVal)]

example : (after smallWriter plainLibs sample [] (firstCalls.take 3)).2.any writerError = false ∧
    blockBufferSize (after smallWriter plainLibs sample [] (firstCalls.take 3)).1 = 0 :=
  ⟨by decide +kernel, (flush_leaves_nothing (E := smallWriter) (boundedWriter_takes 140) sample (firstCalls.take 2)
    (w := []) rfl (by decide +kernel) (by
      intro x hx
      simp only [firstCalls, records, List.take, List.filterMap_cons, List.filterMap_nil, List.mem_cons, List.not_mem_nil, or_false] at hx
      rcases hx with rfl | rfl <;> decide +kernel)).1⟩

example : ∃ out, (step smallWriter (after smallWriter plainLibs sample [] firstCalls).1 (Call.op sample .flush)).1.w <+: out ∧
    (out.length < 2 ^ 63 → ∃ groups pend bs, Written smallWriter plainLibs sample (firstCalls ++ [.flush]) out groups pend bs) :=
  failing_destination (E := smallWriter) (boundedWriter_takes 140) plainLibs_inverse (.inl rfl) (by decide +kernel) (by decide +kernel)
    sample firstCalls .flush rfl (by decide +kernel) (by decide +kernel)

example : ∃ c c', NewReader (demo true)
      [(after smallWriter plainLibs sample [] (firstCalls.take 3 ++ [.record (.id, leafVal), .flush])).1.w] (some c) ∧
    DecodesAll ((demo true).inside plainLibs) sample sample c [sampleVal, leafVal] c' := by
  obtain ⟨groups, bs, h1, h2⟩ := earlier_records_survive_partial (σ := demo true) (s := sample) (E := smallWriter)
    (boundedWriter_takes 140) plainLibs_inverse (.inl rfl) (by decide +kernel) (by decide +kernel) sample_wellFormed
    (demo_delivers true) (by decide) (by decide) (calls := firstCalls.take 3) rfl
    (by
      intro x hx
      simp only [firstCalls, records, List.take, List.filterMap_cons, List.filterMap_nil, List.mem_cons, List.not_mem_nil, or_false] at hx
      rcases hx with rfl | rfl
      · exact ⟨sampleVal_hasTy, by simp [sampleVal]⟩
      · exact ⟨leafVal_hasTy, by simp [leafVal]⟩) (w := []) rfl (by decide +kernel) (by decide +kernel)
  exact h2 (written_fits h1 (by decide +kernel)) [.record (.id, leafVal), .flush] _ (by simp)

/-- A file with two blocks: what it has in common with the examples that follow. -/
def demoMeta : List (List Byte × List Byte) := [(keySchema, ascii "the schema"), (ascii "x", [1, 2])]
def demoSync : List Byte := List.replicate 16 7
def demoGroups : List (List (List Byte × Val)) :=
  [[(enc sample (.id, sampleVal), sampleVal), (enc sample (.rev, leafVal), leafVal)], [(enc sample (.id, leafVal), leafVal)]]
def demoBlocks : List (Nat × List Byte) := demoGroups.map fun g => (g.length, (g.map (·.1)).flatten)
def demoHeader (m : List Byte) : List Byte :=
  m ++ (encLong 2 ++ (demoMeta.map Spec.Ocf.entry).flatten ++ encLong 0) ++ demoSync

theorem demoHeader_ok (m : List Byte) : Spec.Ocf.Header m demoMeta demoSync (demoHeader m) :=
  ⟨_, by
    have := Blocks.counted (demoMeta.map Spec.Ocf.entry) [] (encLong 0) (by simp [demoMeta]) .done
    simpa [demoMeta] using this, rfl⟩

theorem demoMeta_names : Names demoMeta (ascii "the schema") codecNull where
  nodup := by decide +kernel
  schema := by simp [demoMeta]
  codec := .inr ⟨rfl, by decide +kernel⟩
  small := by decide +kernel

theorem demoBlocks_fit : Fits demoBlocks := by unfold Fits; decide +kernel

theorem demoGroups_read (k : Bool) : ∀ g ∈ demoGroups, ∀ x ∈ g, ReadsTo (demo k) sample sample x.1 x.2 := by
  intro g hg x hx
  simp only [demoGroups, List.mem_cons, List.not_mem_nil, or_false] at hg
  rcases hg with rfl | rfl <;> simp only [List.mem_cons, List.not_mem_nil, or_false] at hx
  · rcases hx with rfl | rfl
    · exact readsTo_self sample_wellFormed (show 1000 < 2 ^ 63 by decide) (.id, sampleVal) sampleVal_hasTy (by simp [sampleVal])
    · exact readsTo_self sample_wellFormed (show 1000 < 2 ^ 63 by decide) (.rev, leafVal) leafVal_hasTy (by simp [leafVal])
  · subst hx
    exact readsTo_self sample_wellFormed (show 1000 < 2 ^ 63 by decide) (.id, leafVal) leafVal_hasTy (by simp [leafVal])

theorem demoBlocks_packed : Pairs (fun (g : List (List Byte × Val)) b => Packs plainLibs codecNull (g.map (·.1)).flatten b.2)
    demoGroups demoBlocks := pairs_map fun _ _ => .null

/-- The whole file, in two pieces: all records, then `io.EOF`. -/
example : ∃ c c', NewReader (demo true) [demoHeader Spec.Ocf.magic, Spec.Ocf.blocks demoSync demoBlocks] (some c) ∧
    c.schema = ascii "the schema" ∧
    DecodesAll ((demo true).inside plainLibs) sample sample c [sampleVal, leafVal, leafVal] c' ∧
    (HasBytes (demo true) sample sample → ReadError ((demo true).inside plainLibs) sample sample c' .eof) :=
  container_read (demo_delivers true) (by decide) rfl demoMeta_names (by decide) ⟨_, demoHeader_ok _, rfl⟩
    demoBlocks_fit demoBlocks_packed (demoGroups_read true) (by simp)

/-- Cut in the second block, before its sync marker: the third record is lost, without notice. -/
example : ∃ c c', NewReader (demo true) [demoHeader Spec.Ocf.magic ++ Spec.Ocf.blocks demoSync (demoBlocks.take 1) ++
      (encLong 1 ++ Spec.Ocf.sized (enc sample (.id, leafVal)))] (some c) ∧
    DecodesAll ((demo true).inside plainLibs) sample sample c [sampleVal, leafVal] c' ∧
    (HasBytes (demo true) sample sample → ReadError ((demo true).inside plainLibs) sample sample c' .eof) :=
  cut_looks_complete (k := 1) (b := (1, enc sample (.id, leafVal))) (demo_delivers true) (by decide) rfl demoMeta_names (by decide) (demoHeader_ok _)
    demoBlocks_fit demoBlocks_packed (demoGroups_read true) (by simp [demoBlocks, demoGroups]) (.inl rfl) (by simp)

/-- Cut within the sync marker. -/
example : ∃ c c', NewReader (demo true) [demoHeader Spec.Ocf.magic ++ Spec.Ocf.blocks demoSync (demoBlocks.take 1) ++
      (encLong 1 ++ Spec.Ocf.sized (enc sample (.id, leafVal)) ++ [7, 7])] (some c) ∧
    DecodesAll ((demo true).inside plainLibs) sample sample c [sampleVal, leafVal] c' ∧
    (HasBytes (demo true) sample sample → ReadError ((demo true).inside plainLibs) sample sample c' .unexpectedEOF) :=
  cut_noticed_partial (k := 1) (b := (1, enc sample (.id, leafVal))) (demo_delivers true) (by decide) rfl demoMeta_names (by decide) (demoHeader_ok _)
    demoBlocks_fit demoBlocks_packed (demoGroups_read true) (by simp [demoBlocks, demoGroups])
    (.inr ⟨[7, 7], by simp, by decide, by decide, rfl⟩) (by simp)

/-- Any four bytes instead of the magic. -/
example : ∃ c, NewReader (demo false) [demoHeader [0x50, 0x4B, 3, 4]] (some c) := by
  have := magic_not_checked (demo_delivers false) (by decide) rfl demoMeta_names (by decide) (m := [0x50, 0x4B, 3, 4]) rfl
    (demoHeader_ok _) (rd := [demoHeader [0x50, 0x4B, 3, 4]]) (rest := []) (by simp)
  rw [if_neg (by decide +kernel)] at this
  obtain ⟨c, h, _⟩ := this
  exact ⟨c, h⟩

/-- A block of another file appended. -/
example : ∃ c c', NewReader (demo true) [demoHeader Spec.Ocf.magic ++ Spec.Ocf.blocks demoSync demoBlocks ++
      Spec.Ocf.block syncMarker (1, [1, 2, 3]) ++ []] (some c) ∧
    DecodesAll ((demo true).inside plainLibs) sample sample c [sampleVal, leafVal, leafVal] c' ∧
    (HasBytes (demo true) sample sample → ReadError ((demo true).inside plainLibs) sample sample c' errSync) :=
  foreign_sync_partial (sync' := syncMarker) (demo_delivers true) (by decide) rfl demoMeta_names (by decide) ⟨_, demoHeader_ok _, rfl⟩
    demoBlocks_fit demoBlocks_packed (demoGroups_read true) (by decide +kernel) (by decide +kernel) (b := (1, [1, 2, 3]))
    (by unfold Fits; decide) (rest := []) (by simp)

/-! ### What does not hold -/

/-- `leafVal` with an index that the union in the last field does not have, and no value. -/
def brokenVal : Val := .record [.long 5, .string (txt "b"), .enum 0, .fixed [1, 2, 3, 4], .array [], .map [], .nil,
  .union 5 none]

/-- C45 does not hold. The first `WriteRecord` returns an error, the second one and `Flush` return
nil; but the record of the second cannot be read: what `Serialize` had written of the first one
before it failed is in the block. -/
theorem failed_record_damages_file :
    (after (demoWriter codecNull 10) plainLibs sample [] [.record (.id, brokenVal), .record (.id, leafVal), .flush]).2 =
      [some .invalid, none, none] ∧
    ∃ c, NewReader (demo true)
      [(after (demoWriter codecNull 10) plainLibs sample [] [.record (.id, brokenVal), .record (.id, leafVal), .flush]).1.w] (some c) ∧
      Deserializes ((demo true).inside plainLibs) sample sample c .failed := by
  refine ⟨by decide +kernel, ?_⟩
  have hw : (after (demoWriter codecNull 10) plainLibs sample [] [.record (.id, brokenVal), .record (.id, leafVal), .flush]).1.w =
      headerWire (demoWriter codecNull 10) ++
        Spec.Ocf.block syncMarker (1, [10, 2, 0x62, 0, 1, 2, 3, 4, 0, 0, 0] ++ (10 :: enc sample (.id, leafVal))) := by
    decide +kernel
  rw [hw]
  obtain ⟨es, h1, h2⟩ := headerWire_eq (demoWriter codecNull 10) (by decide +kernel) (by decide +kernel)
  have hn := names_written h1 (by decide +kernel) (by decide +kernel)
  obtain ⟨rd', h3, h4⟩ := open_named (σ := demo true) (demo_delivers true) (by decide) rfl (by decide +kernel) (by decide +kernel) hn
    (by rw [h1.length_eq]; decide) h2 (rd := [headerWire (demoWriter codecNull 10) ++
        Spec.Ocf.block syncMarker (1, [10, 2, 0x62, 0, 1, 2, 3, 4, 0, 0, 0] ++ (10 :: enc sample (.id, leafVal)))])
    (rest := Spec.Ocf.block syncMarker (1, [10, 2, 0x62, 0, 1, 2, 3, 4, 0, 0, 0] ++ (10 :: enc sample (.id, leafVal))))
    (by simp)
  refine ⟨_, h4, ?_⟩
  have h5 := contents_fresh (σ := demo true) (L := plainLibs) (demo_delivers true) (schema := (demoWriter codecNull 10).schema)
    (codec := codecNull) (sync := syncMarker) (by decide +kernel)
    (.cons (packs_opens (L := plainLibs) (codec := codecNull) (n := 1)
      (raw := [10, 2, 0x62, 0, 1, 2, 3, 4, 0, 0, 0] ++ (10 :: enc sample (.id, leafVal))) .null (by decide) (by decide +kernel)) .nil)
    (open_end _ _ _) (rd := rd') (by simpa [Spec.Ocf.blocks] using h3)
  refine inside_failed (demo_delivers true) (L := plainLibs) (e := .eof)
    (bs := [10, 2, 0x62, 0, 1, 2, 3, 4, 0, 0, 0] ++ (10 :: enc sample (.id, leafVal))) ?_ ?_
  · rw [List.append_nil] at h5; exact h5
  obtain ⟨prog, hc⟩ := sample_wellFormed.compiles (demo true).flat.ord
  rcases bad_union_index (σ := (demo true).flat) sample_wellFormed.suited sample_wellFormed.grounded (flatOps_delivers false)
    (by decide) (rd := [10, 2, 0x62, 0, 1, 2, 3, 4, 0, 0, 0] ++ (10 :: enc sample (.id, leafVal))) (sample_bad_union false _) with h | h
  · cases h with
    | refused h6 => rw [hc] at h6; cases h6
  · exact h

/-- `{"type":"record","name":"Flag","fields":[]}` -/
def noFields : Schema := one qFlag []

theorem noFields_wellFormed : WellFormed noFields :=
  one_wellFormed (by decide) (by decide) (by
    intro q d h
    obtain ⟨rfl, rfl⟩ := one_find h
    decide +kernel)

theorem noFields_hasTy (lim : Nat) : HasTy noFields.env lim (.record []) noFields.root :=
  ⟨qFlag, { name := qFlag, kind := .record [] }, [], rfl, by simp [noFields, one, Env.find], rfl, rfl⟩

section
variable {R : Type} {σ : Setting R} {view : R → List Byte} {L : Libs} {es : List (List Byte × List Byte)}
  {sync schema codec : List Byte}

/-- C47 does not hold: from every container, even one without any block, one can read as many
records without fields as one likes. -/
theorem empty_records_never_end (hd : σ.ro.Delivers view) (hl : σ.lim < 2 ^ 63) (hs : sync.length = 16) (hn : Names es schema codec)
    (hes : es.length ≤ σ.lim) {f : List Byte} (hf : Spec.Ocf.File es sync [] f) {rd : R} (hin : view rd = f) :
    ∃ c, NewReader σ rd (some c) ∧ ∀ n, ∃ c',
      DecodesAll (σ.inside L) noFields noFields c (List.replicate n (.record [])) c' := by
  obtain ⟨h, hh, rfl⟩ := hf
  obtain ⟨rd', h1, h2⟩ := open_named hd hl rfl (by decide +kernel) hs hn hes hh hin
  refine ⟨_, h2, fun n => ?_⟩
  have h3 := contents_fresh (L := L) hd (schema := schema) hs .nil (open_end L codec sync) (rd := rd') (by simpa using h1)
  have he : enc noFields (.id, .record []) = [] := by decide +kernel
  obtain ⟨c', h4, h5⟩ := inside_all (w := noFields) (r := noFields) (y := []) hd (xs := List.replicate n ((.id, .record []) : MapOrder × Val))
    (f := enc noFields) (g := (·.2)) (by
      intro x hx
      obtain rfl := List.eq_of_mem_replicate hx
      exact readsTo_self noFields_wellFormed hl _ (noFields_hasTy _) (by simp))
    (by simpa [he] using h3)
  refine ⟨c', ?_⟩
  simpa using h4

example : ∃ c, NewReader (demo true) [demoHeader Spec.Ocf.magic] (some c) ∧ ∀ n, ∃ c',
    DecodesAll ((demo true).inside plainLibs) noFields noFields c (List.replicate n (.record [])) c' :=
  empty_records_never_end (demo_delivers true) (by decide) rfl demoMeta_names (by decide) ⟨_, demoHeader_ok _, rfl⟩
    (by simp [Spec.Ocf.blocks])

/-- C62 does not hold: the checksum at the end of a snappy block is not looked at. Whatever these
four bytes are, the records are read. -/
theorem checksum_not_checked {w r : Schema} (hd : σ.ro.Delivers view) (hl : σ.lim < 2 ^ 63) (hs : sync.length = 16)
    (hn : Names es schema codecSnappy) (hes : es.length ≤ σ.lim) {n : Nat} {z sum raw : List Byte} (hz : L.snappyDecode z = .ok raw)
    (hsum : sum.length = 4) {f : List Byte} (hf : Spec.Ocf.File es sync [(n, z ++ sum)] f) (hfit : Fits [(n, z ++ sum)])
    {xs : List (List Byte × Val)} (hx : raw = (xs.map (·.1)).flatten) (hr : ∀ x ∈ xs, ReadsTo σ w r x.1 x.2)
    {rd : R} (hin : view rd = f) :
    ∃ c c', NewReader σ rd (some c) ∧ DecodesAll (σ.inside L) w r c (xs.map (·.2)) c' := by
  obtain ⟨h, hh, rfl⟩ := hf
  have hne := codecs_ne
  obtain ⟨rd', h1, h2⟩ := open_named hd hl rfl (by decide +kernel) hs hn hes hh hin
  have hb := hfit (n, z ++ sum) (by simp)
  have ho : Opens L codecSnappy (n, z ++ sum) raw := by
    refine ⟨hb.1, hb.2, if raw = [] then [] else [raw], ?_, ?_⟩
    · have hl : (z ++ sum).length = z.length + 4 := by simp [hsum]
      simp only [openCodec, if_neg hne.2.1.symm, if_neg hne.2.2.symm, if_true, hl]
      rw [if_neg (by omega), Nat.add_sub_cancel, List.take_left, hz]
      rfl
    · split
      · rename_i h; rw [h]; rfl
      · simp
  have h3 := contents_fresh (L := L) hd (schema := schema) hs (.cons ho .nil) (open_end L codecSnappy sync) (rd := rd') (by simpa using h1)
  obtain ⟨c', h4, h5⟩ := inside_all (y := []) hd (xs := xs) (f := (·.1)) (g := (·.2)) hr (by simpa [hx] using h3)
  exact ⟨_, c', h2, h4⟩

/-- An unknown codec and a wrong sync marker are reported as different errors. -/
theorem codec_error_not_sync : errCodec ≠ errSync := by decide

/-- C63 does not hold: a block with a codec that the reader does not know cannot be read, -/
theorem unknown_codec_unreadable {w r : Schema} (hd : σ.ro.Delivers view) (hl : σ.lim < 2 ^ 63) (hs : sync.length = 16)
    (hn : Names es schema codec) (hes : es.length ≤ σ.lim) (hk : ¬ Known codec) {b : Nat × List Byte} {bs : List (Nat × List Byte)}
    {f : List Byte} (hf : Spec.Ocf.File es sync (b :: bs) f) (hfit : Fits [b]) {rd : R} (hin : view rd = f) :
    ∃ c, NewReader σ rd (some c) ∧ (HasBytes σ w r → ReadError (σ.inside L) w r c errCodec) := by
  obtain ⟨h, hh, rfl⟩ := hf
  obtain ⟨rd', h1, h2⟩ := open_named hd hl rfl (by decide +kernel) hs hn hes hh hin
  have hb := hfit b (by simp)
  simp only [Known, not_or] at hk
  have ho : openBlock L (flatOps false) codec sync (Spec.Ocf.block sync b ++ Spec.Ocf.blocks sync bs) = .error errCodec := by
    unfold openBlock
    rw [readBlock sync hs b hb.1 hb.2]
    simp only [bindOk, openRaw, ne_eq, not_true_eq_false, if_false, openCodec, if_neg hk.1, if_neg hk.2.1, if_neg hk.2.2]
    rfl
  have h3 := contents_fresh (L := L) hd (schema := schema) hs .nil ho (rd := rd') (by simpa [Spec.Ocf.blocks] using h1)
  exact ⟨_, h2, fun hb => inside_error hd hb h3⟩

/-- and neither can a block of more than 2147483647 bytes. -/
theorem large_block_unreadable {w r : Schema} (hd : σ.ro.Delivers view) (hl : σ.lim < 2 ^ 63) (hs : sync.length = 16)
    (hn : Names es schema codec) (hes : es.length ≤ σ.lim) {b : Nat × List Byte} {bs : List (Nat × List Byte)}
    (hbn : b.1 < 2 ^ 63) (hbig : 2147483647 < b.2.length) (hb63 : b.2.length < 2 ^ 63)
    {f : List Byte} (hf : Spec.Ocf.File es sync (b :: bs) f) {rd : R} (hin : view rd = f) :
    ∃ c, NewReader σ rd (some c) ∧ (HasBytes σ w r → ReadError (σ.inside L) w r c .bytesRange) := by
  obtain ⟨h, hh, rfl⟩ := hf
  obtain ⟨rd', h1, h2⟩ := open_named hd hl rfl (by decide +kernel) hs hn hes hh hin
  have ho : openBlock L (flatOps false) codec sync (Spec.Ocf.block sync b ++ Spec.Ocf.blocks sync bs) = .error .bytesRange := by
    unfold openBlock
    rw [largeBlock sync b hbn hbig hb63]
    rfl
  have h3 := contents_fresh (L := L) hd (schema := schema) hs .nil ho (rd := rd') (by simpa [Spec.Ocf.blocks] using h1)
  exact ⟨_, h2, fun hb => inside_error hd hb h3⟩
end

/-- C63: the writer takes any codec, and does not compress if it does not know it. All calls
return nil, and the file cannot be read. -/
theorem unknown_codec_written :
    (after (demoWriter (ascii "zstandard") 10) plainLibs sample [] [.record (.id, leafVal), .flush]).2 = [none, none] ∧
    ∃ c, NewReader (demo true)
      [(after (demoWriter (ascii "zstandard") 10) plainLibs sample [] [.record (.id, leafVal), .flush]).1.w] (some c) ∧
      ReadError ((demo true).inside plainLibs) sample sample c errCodec := by
  refine ⟨by decide +kernel, ?_⟩
  have hw : (after (demoWriter (ascii "zstandard") 10) plainLibs sample [] [.record (.id, leafVal), .flush]).1.w =
      headerWire (demoWriter (ascii "zstandard") 10) ++ Spec.Ocf.blocks syncMarker [(1, enc sample (.id, leafVal))] := by
    decide +kernel
  obtain ⟨es, h1, h2⟩ := headerWire_eq (demoWriter (ascii "zstandard") 10) (by decide +kernel) (by decide +kernel)
  have hn := names_written h1 (by decide +kernel) (by decide +kernel)
  obtain ⟨c, h3, h4⟩ := unknown_codec_unreadable (σ := demo true) (L := plainLibs) (w := sample) (r := sample) (demo_delivers true) (by decide) (by decide +kernel) hn
    (by rw [h1.length_eq]; decide) (by unfold Known; decide +kernel) (b := (1, enc sample (.id, leafVal))) (bs := []) ⟨_, h2, rfl⟩ (by unfold Fits; decide +kernel)
    (rd := [(after (demoWriter (ascii "zstandard") 10) plainLibs sample [] [.record (.id, leafVal), .flush]).1.w])
    (by simpa using hw)
  exact ⟨c, h3, h4 (sample_hasBytes true)⟩

end Verif.Props
