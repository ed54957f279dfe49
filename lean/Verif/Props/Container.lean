import Verif.Container.Records
/-
Properties C39-C47, C61-C63: object container files.

The notions used in the statements are in `Props/ContainerSpec`, the layout of files in
`Spec/Ocf`. `L` are the compression libraries; where they matter, `L.Inverse` says that
decompressing gives back what was compressed. `E` is what a writer was made with.
-/
namespace Verif.Props
open Verif Verif.Ocf
set_option linter.unusedVariables false
set_option linter.unusedSimpArgs false

/-! ### The constants in the statements are those of the Avro specification -/

theorem names_of_specification : codecNull = Spec.Ocf.nullName ∧ codecDeflate = Spec.Ocf.deflateName ∧
    codecSnappy = Spec.Ocf.snappyName ∧ keySchema = Spec.Ocf.schemaKey ∧ keyCodec = Spec.Ocf.codecKey ∧
    syncMarker.length = 16 := by decide +kernel

/-- The checksum after a snappy block has four bytes, the most significant first. -/
theorem checksum_big_endian (x : BitVec 32) : (bigEndian32 x).length = 4 ∧
    (bigEndian32 x).foldl (fun n b => 256 * n + b.toNat) 0 = x.toNat := by
  refine ⟨rfl, ?_⟩
  have h := x.isLt
  simp only [bigEndian32, List.foldl_cons, List.foldl_nil, BitVec.toNat_setWidth, BitVec.toNat_ushiftRight,
    Nat.shiftRight_eq_div_pow]
  omega

/-! ### Writing: C40, C46, C61 -/

section
variable {W : Type} {E : WEnv W} {L : Libs} {view : W → List Byte}

/-- C40, C46: as long as the destination does not fail, then after every history of calls the
output is a container file whose blocks have the records in order, except those that are pending;
`Written` has the details. And what the calls returned. -/
theorem written (ho : E.o.Takes view) (hL : L.Inverse) (hk : Known E.codec) (hc : E.codec.length ≤ 2147483647)
    (hs : E.schema.length ≤ 2147483647) (s : Schema) (calls : List Call) {w : W} (hw : view w = [])
    (hgood : (after E L s w calls).2.any writerError = false) (hsz : (view (after E L s w calls).1.w).length < 2 ^ 63) :
    (∃ groups pend bs, Written E L s calls (view (after E L s w calls).1.w) groups pend bs) ∧
    (after E L s w calls).2 = calls.map (answer s) := by
  rcases inv_run E ho (calls.map (Call.op s)) (inv_fresh (L := L) w hw) with ⟨h1, h2, h3, h4⟩ | ⟨pre, op, post, h1, h2, h3, _⟩
  · refine ⟨log_written hL hk hc hs s calls ?_ hsz, ?_⟩
    · split
      · rename_i he; subst he; exact hw
      · rename_i he
        exact h3.after (h2 (by simpa using he))
    · have := h4
      rw [List.map_map] at this
      unfold after
      rw [this]
      exact List.map_congr_left fun c _ => expected_calls s c
  · exact (run_good h1 hgood h3).elim

/-- C61: if the destination fails during a call, for the first time, then what it has taken is the
beginning of what it would have taken, that is of a container file with the records of all calls
so far. (Reading such a beginning: C42.) -/
theorem failing_destination (ho : E.o.Takes view) (hL : L.Inverse) (hk : Known E.codec) (hc : E.codec.length ≤ 2147483647)
    (hs : E.schema.length ≤ 2147483647) (s : Schema) (calls : List Call) (call : Call) {w : W} (hw : view w = [])
    (hgood : (after E L s w calls).2.any writerError = false)
    (hbad : writerError (step E (after E L s w calls).1 (call.op s)).2 = true) :
    ∃ out, view (step E (after E L s w calls).1 (call.op s)).1.w <+: out ∧
      (out.length < 2 ^ 63 → ∃ groups pend bs, Written E L s (calls ++ [call]) out groups pend bs) := by
  refine ⟨fileOf E L (logOf E L ((calls ++ [call]).map (Call.op s))), ?_,
    fun hsz => log_written hL hk hc hs s (calls ++ [call]) (by rw [if_neg (by simp)]) hsz⟩
  rcases inv_run E ho (calls.map (Call.op s)) (inv_fresh (L := L) w hw) with ⟨h1, h2, h3, h4⟩ | ⟨pre, op, post, h1, h2, h3, _⟩
  · rcases inv_step E ho h3 (call.op s) with ⟨s', r, h5, h6, h7, h8⟩ | ⟨s', e, h5, q, h6, h7⟩
    · exfalso
      unfold after at hbad
      rw [h5] at hbad
      have : r = expected E L (call.op s) := by rw [h8]; cases call.op s <;> rfl
      simp only [this, expected_not] at hbad
      cases hbad
    · unfold after
      rw [h5]
      simp only [h7, List.nil_append]
      rw [List.map_append, List.map_singleton, logOf_snoc]
      exact h6
  · exact (run_good h1 hgood h3).elim

/-! ### C41 -/

/-- C41: flushing again changes nothing, in any state of the writer: nothing is written, nothing
is returned. -/
theorem flush_twice {st st' : Writer L W} (h : flush E st = (st', none)) : flush E st' = (st', none) := by
  have key : ∀ (a b : Writer L W), a.wrote = true → flushBody E a = (b, none) → b.wrote = true ∧ b.n = 0 := by
    intro a b ha hb
    unfold flushBody at hb
    split at hb
    · cases hb; exact ⟨ha, by assumption⟩
    · unfold writeBlock at hb
      split at hb
      · split at hb
        · cases hb
        · cases hb; exact ⟨ha, rfl⟩
      · cases hb; exact ⟨ha, rfl⟩
  have h2 : st'.wrote = true ∧ st'.n = 0 := by
    unfold flush at h
    split at h
    · cases h
    · rename_i s1 h1
      refine key s1 st' ?_ h
      unfold ensureHeader at h1
      split at h1
      · cases h1; assumption
      · split at h1
        · cases h1; rfl
        · cases h1
  simp only [flush, ensureHeader, h2.1, if_true, flushBody, h2.2]

/-- C41: if all records could be serialized, a history that ends with `Flush` leaves nothing in
the writer: the compressor is as new and the buffer is empty, and all records are in blocks. -/
theorem flush_leaves_nothing (ho : E.o.Takes view) (s : Schema) (calls : List Call) {w : W} (hw : view w = [])
    (hgood : (after E L s w (calls ++ [Call.flush])).2.any writerError = false)
    (hser : ∀ x ∈ records calls, serializes s x = true) :
    blockBufferSize (after E L s w (calls ++ [Call.flush])).1 = 0 ∧
    (after E L s w (calls ++ [Call.flush])).1.cw = .fresh L E.codec := by
  have hc : records (calls ++ [Call.flush]) = records calls := by simp [records, List.filterMap_append]
  rcases inv_run E ho ((calls ++ [Call.flush]).map (Call.op s)) (inv_fresh (L := L) w hw) with
    ⟨h1, h2, h3, h4⟩ | ⟨pre, op, post, h1, h2, h3, _⟩
  · have hp : accepted (logOf E L ((calls ++ [Call.flush]).map (Call.op s))).pend = 0 :=
      log_pend_flush _ (by simp [Call.op])
    have hall := (ok_log (L := L) E ((calls ++ [Call.flush]).map (Call.op s))).all
    rw [items_calls, hc] at hall
    have hnil : (logOf E L ((calls ++ [Call.flush]).map (Call.op s))).pend = [] := by
      obtain ⟨gs, p, _, h6, h7⟩ := exists_groups _ _ _ _ hall
      rw [h6] at hp ⊢
      rw [accepted_items, List.countP_eq_zero] at hp
      cases p with
      | nil => rfl
      | cons x p => exact absurd (hser x (by rw [← h7]; simp)) (hp x (by simp))
    have h5 := h3.comp
    rw [show (List.map (Call.op s) (calls ++ [Call.flush])).foldl (Log.step E L) ⟨[], []⟩ =
      logOf E L ((calls ++ [Call.flush]).map (Call.op s)) from rfl, hnil] at h5
    simp only [pieces, feed, List.map_nil, List.flatten_nil, List.foldl_nil, Prod.mk.injEq] at h5
    exact ⟨by unfold blockBufferSize after; rw [h5.2]; rfl, h5.1⟩
  · exact (run_good h1 hgood h3).elim

/-- C41: without records there are no blocks: the output is the header. -/
theorem no_records {s : Schema} {calls : List Call} {out : List Byte} {groups pend bs}
    (h : Written E L s calls out groups pend bs) (hr : records calls = []) : bs = [] := by
  have h1 := h.order
  rw [hr, List.append_eq_nil_iff] at h1
  have h2 := h.blocks
  cases h2 with
  | nil => rfl
  | @cons g b gs bs h3 _ =>
    have := h1.1
    simp only [List.flatten_cons, List.append_eq_nil_iff] at this
    rw [this.1] at h3
    have h4 := h3.1
    have h5 := h3.2.1
    simp at h4; omega
end

/-! ### Reading: C39, C42, C44 -/

section
variable {R : Type} {σ : Setting R} {view : R → List Byte} {w r : Schema} {L : Libs}
  {es : List (List Byte × List Byte)} {sync schema codec : List Byte} {bs : List (Nat × List Byte)}
  {groups : List (List (List Byte × Val))}

/-- C39, for files of any writer and any reader schema: if the data of the blocks are encodings
that are read as certain values, then the file yields these values, and after that `io.EOF`. (The
counts of the blocks are not looked at.) `w` is the schema in the file, `r` that of the generated
type. -/
theorem container_read (hd : σ.ro.Delivers view) (hl : σ.lim < 2 ^ 63) (hs : sync.length = 16) (hn : Names es schema codec)
    (hes : es.length ≤ σ.lim) {f : List Byte} (hf : Spec.Ocf.File es sync bs f) (hfit : Fits bs)
    (hb : Pairs (fun g b => Packs L codec (g.map (·.1)).flatten b.2) groups bs)
    (hr : ∀ g ∈ groups, ∀ x ∈ g, ReadsTo σ w r x.1 x.2) {rd : R} (hin : view rd = f) :
    ∃ c c', NewReader σ rd (some c) ∧ c.schema = schema ∧
      DecodesAll (σ.inside L) w r c (groups.flatten.map (·.2)) c' ∧
      (HasBytes σ w r → ReadError (σ.inside L) w r c' .eof) := by
  obtain ⟨h, hh, rfl⟩ := hf
  obtain ⟨rd', h1, h2⟩ := open_named hd hl rfl (by decide +kernel) hs hn hes hh hin
  have h3 := contents_fresh hd (schema := schema) hs (opens_all hb hfit) (open_end L codec sync) (rd := rd') (by simpa using h1)
  obtain ⟨c', h4, h5⟩ := inside_all (y := []) hd (xs := groups.flatten) (f := (·.1)) (g := (·.2)) (by
    intro x hx
    obtain ⟨g, hg, hx⟩ := List.mem_flatten.1 hx
    exact hr g hg x hx) (by simpa using h3)
  exact ⟨_, c', h2, rfl, h4, fun hb => inside_error hd hb h5⟩

/-- C42, C45: complete blocks at the beginning of a file are readable, whatever comes after them. -/
theorem container_beginning (hd : σ.ro.Delivers view) (hl : σ.lim < 2 ^ 63) (hs : sync.length = 16) (hn : Names es schema codec)
    (hes : es.length ≤ σ.lim) {f : List Byte} (hf : Spec.Ocf.File es sync bs f) (hfit : Fits bs)
    (hb : Pairs (fun g b => Packs L codec (g.map (·.1)).flatten b.2) groups bs)
    (hr : ∀ g ∈ groups, ∀ x ∈ g, ReadsTo σ w r x.1 x.2) {rd : R} {rest : List Byte} (hin : view rd = f ++ rest) :
    ∃ c c', NewReader σ rd (some c) ∧ c.schema = schema ∧ DecodesAll (σ.inside L) w r c (groups.flatten.map (·.2)) c' := by
  obtain ⟨h, hh, rfl⟩ := hf
  rw [List.append_assoc] at hin
  obtain ⟨rd', h1, h2⟩ := open_named hd hl rfl (by decide +kernel) hs hn hes hh hin
  obtain ⟨y, e, h3⟩ := contents_before hd (schema := schema) hs (opens_all hb hfit) (rd := rd') h1
  obtain ⟨c', h4, h5⟩ := inside_all hd (xs := groups.flatten) (f := (·.1)) (g := (·.2)) (by
    intro x hx
    obtain ⟨g, hg, hx⟩ := List.mem_flatten.1 hx
    exact hr g hg x hx) h3
  exact ⟨_, c', h2, rfl, h4⟩

theorem Fits.take (h : Fits bs) (k : Nat) : Fits (bs.take k) := fun b hb => h b (List.mem_of_mem_take hb)

/-- C44, the error at a cut: with `k` complete blocks and `j` bytes of the next one, reading gives
the records of the complete blocks and then the error that `cutError` says. -/
theorem cut_in_block (hd : σ.ro.Delivers view) (hl : σ.lim < 2 ^ 63) (hs : sync.length = 16) (hn : Names es schema codec)
    (hes : es.length ≤ σ.lim) {h : List Byte} (hh : Spec.Ocf.Header Spec.Ocf.magic es sync h) (hfit : Fits bs)
    (hb : Pairs (fun g b => Packs L codec (g.map (·.1)).flatten b.2) groups bs)
    (hr : ∀ g ∈ groups, ∀ x ∈ g, ReadsTo σ w r x.1 x.2) {k j : Nat} {b : Nat × List Byte} (hk : bs[k]? = some b)
    (hj : j < (Spec.Ocf.block sync b).length) {rd : R}
    (hin : view rd = h ++ Spec.Ocf.blocks sync (bs.take k) ++ (Spec.Ocf.block sync b).take j) :
    ∃ c c', NewReader σ rd (some c) ∧ c.schema = schema ∧
      DecodesAll (σ.inside L) w r c ((groups.take k).flatten.map (·.2)) c' ∧
      (HasBytes σ w r → ReadError (σ.inside L) w r c' (cutError b j)) := by
  rw [List.append_assoc] at hin
  have hbm := hfit b (List.mem_of_getElem? hk)
  obtain ⟨rd', h1, h2⟩ := open_named hd hl rfl (by decide +kernel) hs hn hes hh hin
  have h3 := contents_fresh hd (schema := schema) hs (opens_all (hb.take k) (hfit.take k))
    (open_cut L codec hs hbm.1 hbm.2 j hj) (rd := rd') h1
  obtain ⟨c', h4, h5⟩ := inside_all (y := []) hd (xs := (groups.take k).flatten) (f := (·.1)) (g := (·.2)) (by
    intro x hx
    obtain ⟨g, hg, hx⟩ := List.mem_flatten.1 hx
    exact hr g (List.mem_of_mem_take hg) x hx) (by simpa using h3)
  exact ⟨_, c', h2, rfl, h4, fun hb => inside_error hd hb h5⟩

/-- C42: every beginning `p` of a file either lacks a part of the header, and `NewReader` returns an
error; or there are `k` complete blocks in it (and not one more), and reading yields exactly the
records of these, and then an error. -/
theorem cut_file (hd : σ.ro.Delivers view) (hl : σ.lim < 2 ^ 63) (hs : sync.length = 16) (hn : Names es schema codec)
    (hes : es.length ≤ σ.lim) {h : List Byte} (hh : Spec.Ocf.Header Spec.Ocf.magic es sync h) (hfit : Fits bs)
    (hb : Pairs (fun g b => Packs L codec (g.map (·.1)).flatten b.2) groups bs)
    (hr : ∀ g ∈ groups, ∀ x ∈ g, ReadsTo σ w r x.1 x.2)
    {p : List Byte} (hp : p <+: h ++ Spec.Ocf.blocks sync bs) {rd : R} (hin : view rd = p) :
    (p.length < h.length ∧ NewReader σ rd none) ∨
    ∃ k c c' e, h ++ Spec.Ocf.blocks sync (bs.take k) <+: p ∧
      (p = h ++ Spec.Ocf.blocks sync bs ∧ k = bs.length ∨
        p.length < (h ++ Spec.Ocf.blocks sync (bs.take (k + 1))).length) ∧
      NewReader σ rd (some c) ∧ c.schema = schema ∧
      DecodesAll (σ.inside L) w r c ((groups.take k).flatten.map (·.2)) c' ∧
      (HasBytes σ w r → ReadError (σ.inside L) w r c' e) := by
  obtain ⟨q, hq⟩ := hp
  by_cases hlen : p.length < h.length
  · left
    refine ⟨hlen, ?_⟩
    have : h = p ++ h.drop p.length := by
      have := congrArg (List.take p.length) hq
      rw [List.take_left, List.take_append_of_le_length (by omega)] at this
      conv => lhs; rw [← List.take_append_drop p.length h, ← this]
    rw [this] at hh
    refine newReader_cut hd hl rfl hs hes hn.small hh ?_ hin
    intro h0
    have := congrArg List.length h0
    simp at this; omega
  · right
    obtain ⟨p', rfl⟩ : ∃ p', p = h ++ p' := by
      refine ⟨p.drop h.length, ?_⟩
      have := congrArg (List.take h.length) hq
      rw [List.take_left, List.take_append_of_le_length (by omega)] at this
      conv => lhs; rw [← List.take_append_drop h.length p]
      rw [this]
    rw [List.append_assoc] at hq
    obtain ⟨k, tail, h1, h2, h3⟩ := cut_blocks sync bs p' ⟨q, List.append_cancel_left hq⟩
    rcases h3 with ⟨h3, h4⟩ | ⟨b, j, h3, h4, h5⟩
    · subst h4
      rw [h3, List.take_length, List.append_nil] at h2
      obtain ⟨c, c', a1, a2, a3, a4⟩ := container_read (L := L) hd hl hs hn hes ⟨h, hh, rfl⟩ hfit hb hr (h2 ▸ hin)
      refine ⟨k, c, c', .eof, ?_, .inl ⟨by rw [h2], h3⟩, a1, a2, ?_, a4⟩
      · rw [h3, List.take_length, h2]; exact List.prefix_refl _
      · rw [h3, ← hb.length, List.take_length]; exact a3
    · subst h5
      obtain ⟨c, c', a1, a2, a3, a4⟩ := cut_in_block (L := L) hd hl hs hn hes hh hfit hb hr h3 h4
        (by rw [List.append_assoc, ← h2]; exact hin)
      refine ⟨k, c, c', _, ?_, .inr ?_, a1, a2, a3, a4⟩
      · rw [h2, ← List.append_assoc]; exact List.prefix_append _ _
      · rw [h2, List.take_succ, h3]
        simp [Spec.Ocf.blocks]
        omega

/-! ### C43 -/

/-- C43: a file without the schema in its metadata is refused. -/
theorem schema_required (hd : σ.ro.Delivers view) (hl : σ.lim < 2 ^ 63) (hs : sync.length = 16)
    (hnd : (es.map (·.1)).Nodup) (hsm : ∀ e ∈ es, e.1.length ≤ 2147483647 ∧ e.2.length ≤ 2147483647)
    (hes : es.length ≤ σ.lim) (hno : ∀ e ∈ es, e.1 ≠ keySchema) {m h rest : List Byte} (hm : m.length = 4)
    (hh : Spec.Ocf.Header m es sync h) {rd : R} (hin : view rd = h ++ rest) : NewReader σ rd none := by
  obtain ⟨rd', _, h2⟩ := newReader_header hd hl hm hs hnd hes hsm hh hin
  rw [mapGet_of_not hno] at h2
  simpa using h2

/-- C43, the part about the sync marker: after the records of the blocks before it, a block with a
sync marker that is not the one in the header gives the error "Unexpected sync marker". What is
missing is the magic, see `magic_not_checked`. -/
theorem foreign_sync_partial (hd : σ.ro.Delivers view) (hl : σ.lim < 2 ^ 63) (hs : sync.length = 16) (hn : Names es schema codec)
    (hes : es.length ≤ σ.lim) {f : List Byte} (hf : Spec.Ocf.File es sync bs f) (hfit : Fits bs)
    (hb : Pairs (fun g b => Packs L codec (g.map (·.1)).flatten b.2) groups bs)
    (hr : ∀ g ∈ groups, ∀ x ∈ g, ReadsTo σ w r x.1 x.2) {sync' : List Byte} (hs' : sync'.length = 16) (hne : sync' ≠ sync)
    {b : Nat × List Byte} (hfb : Fits [b]) {rest : List Byte} {rd : R} (hin : view rd = f ++ Spec.Ocf.block sync' b ++ rest) :
    ∃ c c', NewReader σ rd (some c) ∧ DecodesAll (σ.inside L) w r c (groups.flatten.map (·.2)) c' ∧
      (HasBytes σ w r → ReadError (σ.inside L) w r c' errSync) := by
  obtain ⟨h, hh, rfl⟩ := hf
  have hbm := hfb b (by simp)
  rw [List.append_assoc, List.append_assoc] at hin
  obtain ⟨rd', h1, h2⟩ := open_named hd hl rfl (by decide +kernel) hs hn hes hh hin
  have h3 := contents_fresh hd (schema := schema) hs (opens_all hb hfit)
    (open_sync L codec hs' hne hbm.1 hbm.2 rest) (rd := rd') h1
  obtain ⟨c', h4, h5⟩ := inside_all (y := []) hd (xs := groups.flatten) (f := (·.1)) (g := (·.2)) (by
    intro x hx
    obtain ⟨g, hg, hx⟩ := List.mem_flatten.1 hx
    exact hr g hg x hx) (by simpa using h3)
  exact ⟨_, c', h2, h4, fun hb => inside_error hd hb h5⟩

/-- C43 does not hold: whatever the first four bytes are, `NewReader` accepts the header; except
that it refuses the four bytes "obj", 1. (reader.go:32 has `o` instead of `O`, and the condition
is not negated.) -/
theorem magic_not_checked (hd : σ.ro.Delivers view) (hl : σ.lim < 2 ^ 63) (hs : sync.length = 16) (hn : Names es schema codec)
    (hes : es.length ≤ σ.lim) {m h rest : List Byte} (hm : m.length = 4)
    (hh : Spec.Ocf.Header m es sync h) {rd : R} (hin : view rd = h ++ rest) :
    if m = octets [0x6F, 0x62, 0x6A, 1] then NewReader σ rd none
    else ∃ c, NewReader σ rd (some c) ∧ c.schema = schema ∧ c.codec = codec := by
  rw [show octets [0x6F, 0x62, 0x6A, 1] = badMagic by decide +kernel]
  split
  · rename_i hbad
    obtain ⟨rd', _, h2⟩ := newReader_header hd hl hm hs hn.nodup hes hn.small hh hin
    rw [if_pos hbad] at h2; exact h2
  · rename_i hbad
    obtain ⟨rd', _, h2⟩ := open_named hd hl hm hbad hs hn hes hh hin
    exact ⟨_, h2, rfl, rfl⟩

/-! ### C44 -/

/-- C44 does not hold: a file that is cut right before a sync marker, or in the count or the size of
a block, is read to the end without complaint: after the records of the blocks before it there is a
plain `io.EOF`, and the records of the last block are missing. -/
theorem cut_looks_complete (hd : σ.ro.Delivers view) (hl : σ.lim < 2 ^ 63) (hs : sync.length = 16) (hn : Names es schema codec)
    (hes : es.length ≤ σ.lim) {h : List Byte} (hh : Spec.Ocf.Header Spec.Ocf.magic es sync h) (hfit : Fits bs)
    (hb : Pairs (fun g b => Packs L codec (g.map (·.1)).flatten b.2) groups bs)
    (hr : ∀ g ∈ groups, ∀ x ∈ g, ReadsTo σ w r x.1 x.2) {k : Nat} {b : Nat × List Byte} (hk : bs[k]? = some b)
    {part : List Byte} (hpart : part = encLong b.1 ++ Spec.Ocf.sized b.2 ∨ part <+: encLong b.1 ++ encLong b.2.length) {rd : R}
    (hin : view rd = h ++ Spec.Ocf.blocks sync (bs.take k) ++ part) :
    ∃ c c', NewReader σ rd (some c) ∧
      DecodesAll (σ.inside L) w r c ((groups.take k).flatten.map (·.2)) c' ∧
      (HasBytes σ w r → ReadError (σ.inside L) w r c' .eof) := by
  have key : ∃ j, j < (Spec.Ocf.block sync b).length ∧ part = (Spec.Ocf.block sync b).take j ∧ cutError b j = .eof := by
    rcases hpart with rfl | ⟨q, hq⟩
    · refine ⟨(encLong b.1 ++ Spec.Ocf.sized b.2).length, ?_, ?_, ?_⟩
      · simp [Spec.Ocf.block, Spec.Ocf.sized]; omega
      · rw [Spec.Ocf.block, List.take_left]
      · unfold cutError
        rw [if_pos (.inr (by simp [Spec.Ocf.sized]; omega))]
    · have hle : part.length ≤ (encLong b.1).length + (encLong b.2.length).length := by
        have := congrArg List.length hq
        simp at this; omega
      refine ⟨part.length, ?_, ?_, ?_⟩
      · simp [Spec.Ocf.block, Spec.Ocf.sized]; omega
      · exact List.prefix_iff_eq_take.1 ⟨q ++ (b.2 ++ sync), by
          rw [← List.append_assoc, hq]; simp [Spec.Ocf.block, Spec.Ocf.sized]⟩
      · unfold cutError
        rw [if_pos (.inl hle)]
  obtain ⟨j, h1, rfl, h3⟩ := key
  obtain ⟨c, c', a1, _, a3, a4⟩ := cut_in_block (L := L) hd hl hs hn hes hh hfit hb hr hk h1 hin
  exact ⟨c, c', a1, a3, h3 ▸ a4⟩

/-- C44, except for the cuts of `cut_looks_complete`: if a block is cut within its data or within
its sync marker, the error is `io.ErrUnexpectedEOF`. -/
theorem cut_noticed_partial (hd : σ.ro.Delivers view) (hl : σ.lim < 2 ^ 63) (hs : sync.length = 16) (hn : Names es schema codec)
    (hes : es.length ≤ σ.lim) {h : List Byte} (hh : Spec.Ocf.Header Spec.Ocf.magic es sync h) (hfit : Fits bs)
    (hb : Pairs (fun g b => Packs L codec (g.map (·.1)).flatten b.2) groups bs)
    (hr : ∀ g ∈ groups, ∀ x ∈ g, ReadsTo σ w r x.1 x.2) {k : Nat} {b : Nat × List Byte} (hk : bs[k]? = some b)
    {part : List Byte} (hpart : (∃ p, p ≠ [] ∧ p ≠ b.2 ∧ p <+: b.2 ∧ part = encLong b.1 ++ encLong b.2.length ++ p) ∨
      (∃ p, p ≠ [] ∧ p ≠ sync ∧ p <+: sync ∧ part = encLong b.1 ++ Spec.Ocf.sized b.2 ++ p)) {rd : R}
    (hin : view rd = h ++ Spec.Ocf.blocks sync (bs.take k) ++ part) :
    ∃ c c', NewReader σ rd (some c) ∧
      DecodesAll (σ.inside L) w r c ((groups.take k).flatten.map (·.2)) c' ∧
      (HasBytes σ w r → ReadError (σ.inside L) w r c' .unexpectedEOF) := by
  have len : ∀ {p l : List Byte}, p ≠ [] → p ≠ l → p <+: l → 0 < p.length ∧ p.length < l.length := by
    intro p l h1 h2 h3
    refine ⟨List.length_pos_iff.2 h1, ?_⟩
    have := h3.length_le
    rcases Nat.lt_or_ge p.length l.length with h | h
    · exact h
    · exact absurd (h3.eq_of_length (by omega)) h2
  have key : ∃ j, j < (Spec.Ocf.block sync b).length ∧ part = (Spec.Ocf.block sync b).take j ∧ cutError b j = .unexpectedEOF := by
    rcases hpart with ⟨p, h1, h2, h3, rfl⟩ | ⟨p, h1, h2, h3, rfl⟩
    · have hlen := len h1 h2 h3
      refine ⟨(encLong b.1 ++ encLong b.2.length ++ p).length, ?_, ?_, ?_⟩
      rotate_left
      · exact (List.prefix_iff_eq_take.1 (by
          obtain ⟨q, hq⟩ := h3
          refine ⟨q ++ sync, ?_⟩
          simp [Spec.Ocf.block, Spec.Ocf.sized, ← hq]))
      · unfold cutError
        rw [if_neg]
        simp; omega
      · simp [Spec.Ocf.block, Spec.Ocf.sized]; omega
    · have hlen := len h1 h2 h3
      refine ⟨(encLong b.1 ++ Spec.Ocf.sized b.2 ++ p).length, ?_, ?_, ?_⟩
      rotate_left
      · exact (List.prefix_iff_eq_take.1 (by
          obtain ⟨q, hq⟩ := h3
          refine ⟨q, ?_⟩
          simp [Spec.Ocf.block, Spec.Ocf.sized, ← hq]))
      · unfold cutError
        rw [if_neg]
        simp [Spec.Ocf.sized]; omega
      · simp [Spec.Ocf.block, Spec.Ocf.sized]; omega
  obtain ⟨j, h1, rfl, h3⟩ := key
  obtain ⟨c, c', a1, _, a3, a4⟩ := cut_in_block (L := L) hd hl hs hn hes hh hfit hb hr hk h1 hin
  exact ⟨c, c', a1, a3, h3 ▸ a4⟩

/-! ### C47 -/

/-- C47, for records with at least one byte: no matter how long one reads, one gets a beginning of
the records in the file. (That `io.EOF` comes after the last one is in `container_read`.) What is
missing are records without any bytes, see `empty_records_never_end`. -/
theorem reading_stops_partial (hd : σ.ro.Delivers view) (hl : σ.lim < 2 ^ 63) (hs : sync.length = 16) (hn : Names es schema codec)
    (hes : es.length ≤ σ.lim) {f : List Byte} (hf : Spec.Ocf.File es sync bs f) (hfit : Fits bs)
    (hb : Pairs (fun g b => Packs L codec (g.map (·.1)).flatten b.2) groups bs)
    (hr : ∀ g ∈ groups, ∀ x ∈ g, ReadsTo σ w r x.1 x.2) (hbytes : HasBytes σ w r) {rd : R} (hin : view rd = f)
    {c : Reader R} (hc : NewReader σ rd (some c)) {vs : List Val} {c' : Reader R}
    (hv : DecodesAll (σ.inside L) w r c vs c') : vs <+: groups.flatten.map (·.2) := by
  obtain ⟨c1, c2, a1, _, a3, a4⟩ := container_read (L := L) hd hl hs hn hes hf hfit hb hr hin
  have := a1.det hc
  cases this
  exact decodesAll_prefix a3 (a4 hbytes) hv
end

end Verif.Props
