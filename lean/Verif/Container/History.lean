import Verif.Container.Inside
import Verif.Container.WriterProof
import Verif.Gen.BoolFree
/-
Histories of calls of the container writer, and reading what they wrote.
-/
namespace Verif.Ocf
open Verif
open Verif.Props (wire)
set_option linter.unusedSimpArgs false
set_option linter.unusedVariables false

/-- A `flate.Writer` from `NewWriter` or `Reset` on: what it hands on for the pieces written and
for `Close`. -/
def flateStream (L : Libs) (ps : Trace) : List Byte :=
  (ps.foldl (fun c p => ((L.flateWrite c.1 p).1, c.2 ++ (L.flateWrite c.1 p).2)) (L.flateInit, ([] : List Byte))).2 ++
  L.flateClose (ps.foldl (fun c p => ((L.flateWrite c.1 p).1, c.2 ++ (L.flateWrite c.1 p).2)) (L.flateInit, ([] : List Byte))).1

/-- Decompression inverts compression. -/
structure Libs.Inverse (L : Libs) : Prop where
  flate : ∀ ps : Trace, ∃ cs, L.flateRead (flateStream L ps) = (cs, .eof) ∧ cs.flatten = ps.flatten
  snappy : ∀ x, L.snappyDecode (L.snappyEncode x) = .ok x

section
variable {L : Libs}

theorem feed_plain (b : List Byte) : ∀ ps : Trace, feed L (.plain, b) ps = (.plain, b ++ ps.flatten) := by
  intro ps
  induction ps generalizing b with
  | nil => simp [feed]
  | cons p ps ih =>
    have := ih (b ++ p)
    simp only [feed, List.foldl_cons, compOps] at this ⊢
    rw [this]; simp

theorem feed_snappy (i b : List Byte) : ∀ ps : Trace, feed L (.snappy i, b) ps = (.snappy (i ++ ps.flatten), b) := by
  intro ps
  induction ps generalizing i with
  | nil => simp [feed]
  | cons p ps ih =>
    have := ih (i ++ p)
    simp only [feed, List.foldl_cons, compOps] at this ⊢
    rw [this]; simp

theorem feed_flate (s : L.Flate) (b : List Byte) : ∀ ps : Trace, feed L (.flate s, b) ps =
    (.flate (ps.foldl (fun c p => ((L.flateWrite c.1 p).1, c.2 ++ (L.flateWrite c.1 p).2)) (s, b)).1,
      (ps.foldl (fun c p => ((L.flateWrite c.1 p).1, c.2 ++ (L.flateWrite c.1 p).2)) (s, b)).2) := by
  intro ps
  induction ps generalizing s b with
  | nil => simp [feed]
  | cons p ps ih =>
    have := ih (L.flateWrite s p).1 (b ++ (L.flateWrite s p).2)
    simp only [feed, List.foldl_cons, compOps] at this ⊢
    rw [this]

theorem codecs_ne : codecNull ≠ codecDeflate ∧ codecNull ≠ codecSnappy ∧ codecDeflate ≠ codecSnappy := by decide +kernel

theorem packed_null (ps : Trace) : packed L codecNull ps = ps.flatten := by
  have h := codecs_ne
  simp only [packed, Comp.fresh, if_neg h.1, if_neg h.2.1, feed_plain, Comp.close, List.nil_append, List.append_nil]

theorem packed_deflate (ps : Trace) : packed L codecDeflate ps = flateStream L ps := by
  simp only [packed, Comp.fresh, if_true, feed_flate, Comp.close, flateStream]

theorem packed_snappy (ps : Trace) : packed L codecSnappy ps =
    L.snappyEncode ps.flatten ++ bigEndian32 (L.crc32 ps.flatten) := by
  have h := codecs_ne
  simp only [packed, Comp.fresh, if_neg h.2.2.symm, if_true, feed_snappy, Comp.close, List.nil_append]

/-- The codecs that the reader knows. -/
def Known (codec : List Byte) : Prop := codec = codecNull ∨ codec = codecDeflate ∨ codec = codecSnappy

theorem packed_opens (hL : L.Inverse) {codec : List Byte} (hk : Known codec) (ps : Trace) {n : Nat} (hn : n < 2 ^ 63)
    (hsz : (packed L codec ps).length ≤ 2147483647) : Opens L codec (n, packed L codec ps) ps.flatten := by
  have hne := codecs_ne
  refine ⟨hn, hsz, ?_⟩
  rcases hk with rfl | rfl | rfl
  · rw [packed_null]
    refine ⟨if ps.flatten = [] then [] else [ps.flatten], by simp only [openCodec, if_true, Blk.buffer], ?_⟩
    split
    · rename_i h; rw [h]; rfl
    · simp
  · rw [packed_deflate]
    obtain ⟨cs, h1, h2⟩ := hL.flate ps
    exact ⟨cs, by simp only [openCodec, if_neg hne.1.symm, if_true, h1], h2⟩
  · rw [packed_snappy]
    simp only
    have hl : (L.snappyEncode ps.flatten ++ bigEndian32 (L.crc32 ps.flatten)).length = (L.snappyEncode ps.flatten).length + 4 := by
      simp [bigEndian32]
    refine ⟨if ps.flatten = [] then [] else [ps.flatten], ?_, ?_⟩
    · simp only [openCodec, if_neg hne.2.1.symm, if_neg hne.2.2.symm, if_true, hl]
      rw [if_neg (by omega), Nat.add_sub_cancel, List.take_left, hL.snappy]
      rfl
    · split
      · rename_i h; rw [h]; rfl
      · simp
end

section
variable {L : Libs} {W : Type} (E : WEnv W) {view : W → List Byte} {base : List Byte}

/-- The file after the calls, if the writer below never fails. -/
def logOf (L : Libs) (ops : List Op) : Log := ops.foldl (Log.step E L) ⟨[], []⟩

/-- An error of the writer below. -/
def writerError : Option WErr → Bool
  | some (.writer _) => true
  | _ => false

/-- What a call returns otherwise. -/
def expected (L : Libs) : Op → Option WErr
  | .flush => none
  | .record rec => if (rec (Comp.fresh L E.codec).byteWriter).2 then none else some .invalid

theorem expected_not (op : Op) : writerError (expected E L op) = false := by
  cases op with
  | flush => rfl
  | record rec =>
    simp only [expected]
    split <;> rfl

theorem inv_run (ho : E.o.Takes view) : ∀ (ops : List Op) {s : Writer L W} {l : Log}, Inv E view base s l →
    ((run E s ops).2.any writerError = false ∧ (ops ≠ [] → (run E s ops).1.wrote = true) ∧
      Inv E view base (run E s ops).1 (ops.foldl (Log.step E L) l) ∧ (run E s ops).2 = ops.map (expected E L)) ∨
    (∃ pre op post, ops = pre ++ op :: post ∧ (run E s pre).2.any writerError = false ∧
      writerError (step E (run E s pre).1 op).2 = true ∧ ∃ q, q <+: fileOf E L ((pre ++ [op]).foldl (Log.step E L) l) ∧
        view (step E (run E s pre).1 op).1.w = base ++ q) := by
  intro ops
  induction ops with
  | nil => intro s l h; exact .inl ⟨rfl, fun h => absurd rfl h, h, rfl⟩
  | cons op ops ih =>
    intro s l h
    rcases inv_step E ho h op with ⟨s', r, h1, h2, h3, h4⟩ | ⟨s', e, h1, q, h2, h3⟩
    · have hr : r = expected E L op := by rw [h4]; cases op <;> rfl
      have hnw : writerError r = false := by rw [hr]; exact expected_not E op
      rcases ih h3 with ⟨h5, h6, h7, h8⟩ | ⟨pre, op', post, h5, h6, h7, h8⟩
      · left
        refine ⟨by simp only [run, h1, List.any_cons, hnw, h5, Bool.or_self], fun _ => ?_, by simpa only [run, h1, List.foldl_cons] using h7,
          by simp only [run, h1, List.map_cons, h8, hr]⟩
        simp only [run, h1]
        cases ops with
        | nil => exact h2
        | cons a b => exact h6 (by simp)
      · right
        refine ⟨op :: pre, op', post, by rw [h5]; rfl, ?_, ?_, ?_⟩
        · simp only [run, h1, List.any_cons, hnw, h6, Bool.or_self]
        · simp only [run, h1]; exact h7
        · simp only [run, h1]; exact h8
    · right
      exact ⟨[], op, ops, rfl, rfl, by simp only [run, h1, writerError], q, h2, by simpa only [run, h1] using h3⟩

/-- The records among the calls. -/
def items (L : Libs) (ops : List Op) : List SerOut := ops.filterMap fun
  | .record rec => some (rec (Comp.fresh L E.codec).byteWriter)
  | .flush => none

/-- The log has the items in order, in groups as they should be. -/
structure Log.OK (per : Int) (es : List SerOut) (l : Log) : Prop where
  all : l.done.flatten ++ l.pend = es
  groups : ∀ g ∈ l.done, 1 ≤ accepted g ∧ (accepted g : Int) ≤ max per 1
  pend : (accepted l.pend : Int) < max per 1

theorem ok_record {per : Int} {es : List SerOut} {l : Log} (h : l.OK per es) (e : SerOut) : (l.record per e).OK per (es ++ [e]) := by
  have hp := h.pend
  have ha := accepted_append l.pend e
  unfold Log.record
  split
  · rename_i hc
    rw [if_pos hc.1] at ha
    refine ⟨by rw [← h.all]; simp, ?_, by simp [accepted]; omega⟩
    intro g hg
    simp only [List.mem_append, List.mem_singleton] at hg
    rcases hg with hg | rfl
    · exact h.groups g hg
    · omega
  · rename_i hc
    refine ⟨by rw [← h.all]; simp, h.groups, ?_⟩
    simp only
    by_cases h2 : e.2 = true
    · rw [if_pos h2] at ha
      have : ¬ per ≤ (accepted (l.pend ++ [e]) : Int) := fun h3 => hc ⟨h2, h3⟩
      omega
    · rw [if_neg h2] at ha
      omega

theorem ok_flush {per : Int} {es : List SerOut} {l : Log} (h : l.OK per es) : l.flush.OK per es ∧ accepted l.flush.pend = 0 := by
  unfold Log.flush
  split
  · exact ⟨h, by assumption⟩
  · refine ⟨⟨by rw [← h.all]; simp, ?_, by simp [accepted]; omega⟩, rfl⟩
    intro g hg
    simp only [List.mem_append, List.mem_singleton] at hg
    rcases hg with hg | rfl
    · exact h.groups g hg
    · have := h.pend; omega

theorem ok_step {es : List SerOut} {l : Log} (h : l.OK E.per.toInt es) (op : Op) :
    (l.step E L op).OK E.per.toInt (es ++ items E L [op]) := by
  cases op with
  | flush => simpa [items, Log.step] using (ok_flush h).1
  | record rec => simpa [items, Log.step] using ok_record h _

theorem ok_log (ops : List Op) : (logOf E L ops).OK E.per.toInt (items E L ops) := by
  have key : ∀ (ops : List Op) (l : Log) (es : List SerOut), l.OK E.per.toInt es →
      (ops.foldl (Log.step E L) l).OK E.per.toInt (es ++ items E L ops) := by
    intro ops
    induction ops with
    | nil => intro l es h; simpa [items] using h
    | cons op ops ih =>
      intro l es h
      have := ih _ _ (ok_step (L := L) E h op)
      rw [List.foldl_cons]
      have he : items E L (op :: ops) = items E L [op] ++ items E L ops := by
        simp only [items]; rw [← List.filterMap_append]; rfl
      rw [he, ← List.append_assoc]; exact this
  have h0 : (⟨[], []⟩ : Log).OK E.per.toInt [] := ⟨rfl, by simp, by simp [accepted]; omega⟩
  simpa [logOf] using key ops _ _ h0

theorem writeBytes_big (bw : Bool) (x : List Byte) (h : x.length < 2 ^ 63) :
    (writeBytes bw x).bytes = encLong x.length ++ x := by
  rw [← writeLong_nat bw _ h]
  simp [writeBytes, writeString, Trace.bytes]

/-- A block of the file. -/
theorem blockWire_eq (es : List SerOut) (hn : accepted es < 2 ^ 63) (hs : (packed L E.codec (pieces es)).length < 2 ^ 63) :
    blockWire L E.codec es = Spec.Ocf.block syncMarker (accepted es, packed L E.codec (pieces es)) := by
  have : blockWire L E.codec es = (writeLong false (BitVec.ofNat 64 (accepted es))).bytes ++
      ((writeBytes false (packed L E.codec (pieces es))).bytes ++ (syncMarker ++ [])) := by
    unfold blockWire wire
    show (writeLong false _ ++ (writeBytes false _ ++ ([syncMarker] ++ []))).flatten = _
    simp [Trace.bytes]
  rw [this, writeLong_nat _ _ hn, writeBytes_big _ _ hs]
  simp [Spec.Ocf.block, Spec.Ocf.sized]

theorem blocksWire_eq {l : List (List SerOut)} (h : ∀ es ∈ l, accepted es < 2 ^ 63 ∧ (packed L E.codec (pieces es)).length < 2 ^ 63) :
    (l.map (blockWire L E.codec)).flatten = Spec.Ocf.blocks syncMarker (l.map fun es => (accepted es, packed L E.codec (pieces es))) := by
  unfold Spec.Ocf.blocks
  rw [List.map_map]
  congr 1
  apply List.map_congr_left
  intro es he
  exact blockWire_eq E es (h es he).1 (h es he).2

theorem perm_pair {α : Type} {l : List α} {a b : α} (h : l.Perm [a, b]) : l = [a, b] ∨ l = [b, a] := by
  have hl := h.length_eq
  match l, hl with
  | [x, y], _ =>
    have hx : x ∈ [a, b] := h.subset (by simp)
    simp only [List.mem_cons, List.not_mem_nil, or_false] at hx
    rcases hx with rfl | rfl
    · left
      have := (List.perm_cons x).1 h
      simp only [List.singleton_perm_singleton] at this
      rw [this]
    · right
      have := (List.perm_cons x).1 (h.trans (List.Perm.swap x a []))
      simp only [List.singleton_perm_singleton] at this
      rw [this]

/-- The header of the file. -/
theorem headerWire_eq (hc : E.codec.length ≤ 2147483647) (hs : E.schema.length ≤ 2147483647) :
    ∃ es, es.Perm [(keyCodec, E.codec), (keySchema, E.schema)] ∧
      Spec.Ocf.Header Spec.Ocf.magic es syncMarker (headerWire E) := by
  have hm : Spec.Ocf.magic = magic := by decide +kernel
  have hk1 : keyCodec.length ≤ 2147483647 := by decide +kernel
  have hk2 : keySchema.length ≤ 2147483647 := by decide +kernel
  have key : ∀ (es : List (List Byte × List Byte)) (sers : List SerOut), es.length = 2 →
      (∀ e ∈ es, e.1.length ≤ 2147483647 ∧ e.2.length ≤ 2147483647) →
      sers = es.map (fun e => SerOut.andThen (writeString false e.1, true) (writeBytes false e.2, true)) →
      Spec.Ocf.Header Spec.Ocf.magic es syncMarker (SerOut.andThen ([magic], true) (SerOut.andThen
        (SerOut.andThen (writeLong false 2, true) ((serAll sers).andThen (writeLong false 0, true)))
        (SerOut.andThen ([syncMarker], true) ([], true)))).1.bytes := by
    intro es sers h2 hb hse
    refine ⟨encLong 2 ++ (es.map Spec.Ocf.entry).flatten ++ encLong 0, ?_, ?_⟩
    · have := Blocks.counted (es.map Spec.Ocf.entry) [] (encLong 0) (by intro h; simp at h; rw [h] at h2; cases h2) .done
      simpa [h2] using this
    · have hok : SerOKs sers (es.map Spec.Ocf.entry) := by
        rw [hse]
        apply serOKs_map
        intro e he
        refine ⟨by simp [SerOut.andThen], ?_⟩
        obtain ⟨h3, h4⟩ := hb e he
        simp only [SerOut.andThen, if_true]
        rw [Trace.bytes, List.flatten_append]
        have a := writeString_bytes false e.1 h3
        have b := writeBytes_bytes false e.2 h4
        rw [Trace.bytes] at a b
        rw [a, b]; rfl
      obtain ⟨h5, h6⟩ := Verif.serAll_ok hok
      rw [Trace.bytes] at h6
      have l2 : (writeLong false 2).flatten = encLong 2 := by
        have := writeLong_nat false 2 (by decide); exact this
      have l0 : (writeLong false 0).flatten = encLong 0 := by
        have := writeLong_nat false 0 (by decide); exact this
      simp only [SerOut.andThen, h5, if_true, Trace.bytes, List.flatten_append, h6, l2, l0, hm]
      simp
  unfold headerWire wire
  rw [header_ser]
  have hb : ∀ e ∈ [(keyCodec, E.codec), (keySchema, E.schema)], e.1.length ≤ 2147483647 ∧ e.2.length ≤ 2147483647 := by
    intro e he
    simp only [List.mem_cons, List.not_mem_nil, or_false] at he
    rcases he with rfl | rfl
    · exact ⟨hk1, hc⟩
    · exact ⟨hk2, hs⟩
  rcases perm_pair (E.mo.isPerm [1] [SerOut.andThen (writeString false keyCodec, true) (writeBytes false E.codec, true),
      SerOut.andThen (writeString false keySchema, true) (writeBytes false E.schema, true)]) with h | h
  · rw [h]
    exact ⟨_, .refl _, key _ _ rfl hb rfl⟩
  · rw [h]
    refine ⟨[(keySchema, E.schema), (keyCodec, E.codec)], .swap _ _ _, key _ _ rfl ?_ rfl⟩
    intro e he
    exact hb e (by simpa [or_comm] using he)
end

/-! ### Reading -/

section
variable {R : Type} {σ : Setting R} {view : R → List Byte} {L : Libs}

theorem contents_fresh (hd : σ.ro.Delivers view) {codec sync schema : List Byte} (hs : sync.length = 16) {bs raws}
    (h : OpensAll L codec bs raws) {tail : List Byte} {e : Err}
    (ht : openBlock L (flatOps false) codec sync tail = .error e) {rd : R}
    (hin : view rd = Spec.Ocf.blocks sync bs ++ tail) :
    contents L σ.ro ⟨codec, rd, none, schema, sync⟩ = (raws, e) := by
  obtain ⟨k', hk, h1, h2⟩ := upcoming_blocks hs h tail (σ.ro.size rd + 1) (by
    have := hd.size_ge rd
    rw [hin] at this
    unfold Spec.Ocf.blocks at this
    omega)
  have hu : upcoming L (flatOps false) codec sync k' tail = ([], e) := by
    cases k' with
    | zero => omega
    | succ k' => simp only [upcoming, ht]
  rw [hu] at h1 h2
  have hr : Reader.rest L σ.ro ⟨codec, rd, none, schema, sync⟩ =
      upcoming L (flatOps false) codec sync (σ.ro.size rd + 1) (Spec.Ocf.blocks sync bs ++ tail) := by
    simp only [Reader.rest]
    rw [sim_upcoming hd, hin]
  unfold contents
  rw [hr]
  unfold Spec.Ocf.blocks
  rw [h1, h2]
  simp

theorem open_end (L : Libs) (codec sync : List Byte) : openBlock L (flatOps false) codec sync [] = .error .eof := rfl

theorem open_cut (L : Libs) (codec : List Byte) {sync : List Byte} (hs : sync.length = 16) {b : Nat × List Byte} (hn : b.1 < 2 ^ 63)
    (hd : b.2.length ≤ 2147483647) (j : Nat) (hj : j < (Spec.Ocf.block sync b).length) :
    openBlock L (flatOps false) codec sync ((Spec.Ocf.block sync b).take j) = .error (cutError b j) := by
  unfold openBlock
  rw [cutBlock sync hs b hn hd j hj]
  rfl

/-- A block with another sync marker. -/
theorem open_sync (L : Libs) (codec : List Byte) {sync sync' : List Byte} (hs : sync'.length = 16) (hne : sync' ≠ sync)
    {b : Nat × List Byte} (hn : b.1 < 2 ^ 63) (hd : b.2.length ≤ 2147483647) (rest : List Byte) :
    openBlock L (flatOps false) codec sync (Spec.Ocf.block sync' b ++ rest) = .error errSync := by
  unfold openBlock
  rw [readBlock sync' hs b hn hd]
  simp only [bindOk, openRaw, ne_eq, hne, not_false_eq_true, if_true]
  rfl

theorem header_noBool : headerSchema.noBool = true := by decide +kernel

/-- A part of a header. -/
theorem newReader_cut (hd : σ.ro.Delivers view) (hl : σ.lim < 2 ^ 63) {m es sync p q} (hm : m.length = 4)
    (hs : sync.length = 16) (hes : es.length ≤ σ.lim)
    (he : ∀ e ∈ es, e.1.length ≤ 2147483647 ∧ e.2.length ≤ 2147483647) (hh : Spec.Ocf.Header m es sync (p ++ q)) (hq : q ≠ [])
    {rd : R} (hin : view rd = p) : NewReader σ rd none := by
  obtain ⟨prog, hc⟩ := headerSchema_wellFormed.compiles σ.ord
  have h1 := Props.prefix_unreadable hl headerSchema_wellFormed.grounded (header_enc hm hs hh) (header_within hes he) hq
  rw [← hin] at h1
  exact .failed (.inr (outcome_unreadable headerSchema_wellFormed.suited hd hc (h1.any header_noBool false _)))
end
end Verif.Ocf
