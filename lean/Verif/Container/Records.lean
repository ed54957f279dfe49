import Verif.Props.ContainerSpec
/-
Records in blocks.
-/
namespace Verif.Ocf
open Verif Verif.Props
set_option linter.unusedSimpArgs false
set_option linter.unusedVariables false

theorem packs_opens {L : Libs} {codec raw data : List Byte} (h : Packs L codec raw data) {n : Nat} (hn : n < 2 ^ 63)
    (hd : data.length ≤ 2147483647) : Opens L codec (n, data) raw := by
  have hne := codecs_ne
  refine ⟨hn, hd, ?_⟩
  cases h with
  | null =>
    refine ⟨if raw = [] then [] else [raw], by simp only [openCodec, if_true, Blk.buffer], ?_⟩
    split
    · rename_i h; rw [h]; rfl
    · simp
  | deflate h1 h2 => exact ⟨_, by simp only [openCodec, if_neg hne.1.symm, if_true, h1], h2⟩
  | @snappy _ z h1 =>
    refine ⟨if raw = [] then [] else [raw], ?_, ?_⟩
    · have hl : (z ++ bigEndian32 (L.crc32 raw)).length = z.length + 4 := by simp [bigEndian32]
      simp only [openCodec, if_neg hne.2.1.symm, if_neg hne.2.2.symm, if_true, hl]
      rw [if_neg (by omega), Nat.add_sub_cancel, List.take_left, h1]
      rfl
    · split
      · rename_i h; rw [h]; rfl
      · simp

theorem packed_packs {L : Libs} (hL : L.Inverse) {codec : List Byte} (hk : Known codec) (ps : Trace) :
    Packs L codec ps.flatten (packed L codec ps) := by
  rcases hk with rfl | rfl | rfl
  · rw [packed_null]; exact .null
  · rw [packed_deflate]
    obtain ⟨cs, h1, h2⟩ := hL.flate ps
    exact .deflate h1 h2
  · rw [packed_snappy]; exact .snappy (hL.snappy _)

theorem exists_groups {α β : Type} (f : α → β) : ∀ (done : List (List β)) (pend : List β) (xs : List α),
    done.flatten ++ pend = xs.map f → ∃ (gs : List (List α)) (p : List α), done = gs.map (List.map f) ∧ pend = p.map f ∧ gs.flatten ++ p = xs
  | [], pend, xs, h => ⟨[], xs, rfl, by simpa using h, rfl⟩
  | d :: done, pend, xs, h => by
    simp only [List.flatten_cons, List.append_assoc] at h
    obtain ⟨a, b, rfl, h1, h2⟩ := List.map_eq_append_iff.1 h.symm
    obtain ⟨gs, p, h3, h4, h5⟩ := exists_groups f done pend b h2.symm
    exact ⟨a :: gs, p, by simp [h1, h3], h4, by simp [h5]⟩

theorem pairs_map {α β : Type} {P : α → β → Prop} {f : α → β} : ∀ {l : List α}, (∀ a ∈ l, P a (f a)) → Pairs P l (l.map f)
  | [], _ => .nil
  | a :: l, h => .cons (h a (by simp)) (pairs_map fun b hb => h b (by simp [hb]))

theorem _root_.Verif.Props.Pairs.mono {α β : Type} {P Q : α → β → Prop} {as : List α} {bs : List β} (h : Pairs P as bs)
    (hpq : ∀ a b, P a b → Q a b) : Pairs Q as bs := by
  induction h with
  | nil => exact .nil
  | cons h _ ih => exact .cons (hpq _ _ h) ih

theorem _root_.Verif.Props.Pairs.length {α β : Type} {P : α → β → Prop} {as : List α} {bs : List β} (h : Pairs P as bs) :
    as.length = bs.length := by
  induction h with
  | nil => rfl
  | cons _ _ ih => simp [ih]

theorem _root_.Verif.Props.Pairs.take {α β : Type} {P : α → β → Prop} {as : List α} {bs : List β} (h : Pairs P as bs) :
    ∀ k, Pairs P (as.take k) (bs.take k) := by
  induction h with
  | nil => intro k; simpa using Pairs.nil
  | cons h _ ih =>
    intro k
    cases k with
    | zero => exact .nil
    | succ k => exact .cons h (ih k)

theorem _root_.Verif.Props.Pairs.right {α β : Type} {P : α → β → Prop} {as : List α} {bs : List β} (h : Pairs P as bs) :
    ∀ b ∈ bs, ∃ a, a ∈ as ∧ P a b := by
  induction h with
  | nil => intro b hb; cases hb
  | @cons a b _ _ h _ ih =>
    intro b' hb
    rcases List.mem_cons.1 hb with rfl | hb
    · exact ⟨a, by simp, h⟩
    · obtain ⟨x, h1, h2⟩ := ih b' hb; exact ⟨x, by simp [h1], h2⟩

theorem opens_all {α : Type} {L : Libs} {codec : List Byte} {f : α → List Byte} {groups : List (List α)} {bs : List (Nat × List Byte)}
    (h : Pairs (fun g b => Packs L codec (g.map f).flatten b.2) groups bs) (hf : Fits bs) :
    OpensAll L codec bs (groups.flatten.map f).flatten := by
  induction h with
  | nil => exact .nil
  | @cons g b gs bs h _ ih =>
    have h1 := hf b (by simp)
    have := OpensAll.cons (packs_opens h h1.1 h1.2) (ih fun x hx => hf x (by simp [hx]))
    simpa using this

section
variable {R : Type} {σ : Setting R} {view : R → List Byte} {w r : Schema} {L : Libs}

/-- Records out of a container, one after the other. -/
theorem inside_all {α : Type} {f : α → List Byte} {g : α → Val} (hd : σ.ro.Delivers view) : ∀ {xs : List α}, (∀ x ∈ xs, ReadsTo σ w r (f x) (g x)) →
    ∀ {c : Reader R} {y : List Byte} {e : Err}, contents L σ.ro c = ((xs.map f).flatten ++ y, e) →
    ∃ c', DecodesAll (σ.inside L) w r c (xs.map g) c' ∧ contents L σ.ro c' = (y, e)
  | [], _, c, y, e, hc => ⟨c, .nil, by simpa using hc⟩
  | x :: xs, h, c, y, e, hc => by
    have h0 := h x (by simp) ((xs.map f).flatten ++ y)
    obtain ⟨c1, h1, h2⟩ := inside_value hd (by simpa using hc) h0
    obtain ⟨c2, h3, h4⟩ := inside_all hd (fun y hy => h y (by simp [hy])) h2
    exact ⟨c2, .cons h1 h3, h4⟩

theorem inside_error (hd : σ.ro.Delivers view) (hb : HasBytes σ w r) {c : Reader R} {e : Err}
    (hc : contents L σ.ro c = ([], e)) : ReadError (σ.inside L) w r c e := by
  obtain ⟨b, v, h1, h2⟩ := hb
  exact inside_end hd hc (h1 []) (by simpa using h2.symm)

theorem mapGet_of_mem {α : Type} {es : List (List Byte × α)} (hn : (es.map (·.1)).Nodup) {k : List Byte} {v : α}
    (h : (k, v) ∈ es) : mapGet es k = some v := by
  induction es with
  | nil => cases h
  | cons x es ih =>
    obtain ⟨a, b⟩ := x
    simp only [List.map_cons, List.nodup_cons] at hn
    rcases List.mem_cons.1 h with h | h
    · cases h; simp [mapGet]
    · have : a ≠ k := by rintro rfl; exact hn.1 (List.mem_map.2 ⟨_, h, rfl⟩)
      simp only [mapGet, if_neg this]; exact ih hn.2 h

theorem mapGet_of_not {α : Type} {es : List (List Byte × α)} {k : List Byte} (h : ∀ e ∈ es, e.1 ≠ k) : mapGet es k = none := by
  induction es with
  | nil => rfl
  | cons x es ih =>
    simp only [mapGet, if_neg (h x (by simp))]
    exact ih fun e he => h e (by simp [he])

theorem _root_.Verif.Props.Names.codec_get {es schema codec} (h : Names es schema codec) : (mapGet es keyCodec).getD codecNull = codec := by
  rcases h.codec with h1 | ⟨h1, h2⟩
  · rw [mapGet_of_mem h.nodup h1]; rfl
  · rw [mapGet_of_not h2, h1]; rfl

/-- A header with any magic but one. -/
theorem open_named (hd : σ.ro.Delivers view) (hl : σ.lim < 2 ^ 63) {m es sync h rest schema codec} (hm : m.length = 4)
    (hbad : m ≠ badMagic) (hs : sync.length = 16) (hn : Names es schema codec) (hes : es.length ≤ σ.lim)
    (hh : Spec.Ocf.Header m es sync h) {rd : R} (hin : view rd = h ++ rest) :
    ∃ rd', view rd' = rest ∧ NewReader σ rd (some ⟨codec, rd', none, schema, sync⟩) := by
  obtain ⟨rd', h1, h2⟩ := newReader_header hd hl hm hs hn.nodup hes hn.small hh hin
  refine ⟨rd', h1, ?_⟩
  rw [if_neg hbad, mapGet_of_mem hn.nodup hn.schema, Names.codec_get hn] at h2
  exact h2
end
end Verif.Ocf

namespace Verif.Ocf
open Verif Verif.Props
set_option linter.unusedSimpArgs false
set_option linter.unusedVariables false

section
variable {L : Libs} {W : Type} {E : WEnv W}

/-- A record handed to the compressor. -/
def item (L : Libs) (E : WEnv W) (s : Schema) (x : MapOrder × Val) : SerOut :=
  serialize s.env (Comp.fresh L E.codec).byteWriter x.1 x.2 s.root

theorem items_calls (s : Schema) : ∀ calls : List Call,
    items E L (calls.map (Call.op s)) = (records calls).map (item L E s)
  | [] => rfl
  | .flush :: cs => by
    have := items_calls s cs
    simp only [items, records] at this ⊢
    simpa [Call.op] using this
  | .record x :: cs => by
    have := items_calls s cs
    simp only [items, records] at this ⊢
    simpa [Call.op, recordOp, item] using this

theorem item_ok (s : Schema) (x : MapOrder × Val) : (item L E s x).2 = serializes s x :=
  (ser_same s.env _ false x.1 x.2 s.root []).2

theorem item_bytes (s : Schema) (x : MapOrder × Val) : (item L E s x).1.flatten = enc s x :=
  (ser_same s.env _ false x.1 x.2 s.root []).1

theorem accepted_items (s : Schema) (g : List (MapOrder × Val)) : accepted (g.map (item L E s)) = g.countP (serializes s) := by
  unfold accepted
  rw [List.countP_map]
  apply List.countP_congr
  intro x _
  simp [item_ok]

theorem pieces_items (s : Schema) (g : List (MapOrder × Val)) :
    (pieces (g.map (item L E s))).flatten = (g.map (enc s)).flatten := by
  induction g with
  | nil => rfl
  | cons x g ih =>
    simp only [pieces] at ih
    simp only [pieces, List.map_cons, List.flatten_cons, List.flatten_append, item_bytes, ih]

theorem expected_calls (s : Schema) (c : Call) : expected E L (c.op s) = answer s c := by
  cases c with
  | flush => rfl
  | record x =>
    have := item_ok (L := L) (E := E) s x
    simp only [item] at this
    simp [expected, Call.op, recordOp, answer, this]

theorem blockWire_ge (es : List SerOut) : (packed L E.codec (pieces es)).length ≤ (blockWire L E.codec es).length := by
  have : blockWire L E.codec es = (writeLong false (BitVec.ofNat 64 (accepted es))).bytes ++
      ((writeBytes false (packed L E.codec (pieces es))).bytes ++ (syncMarker ++ [])) := by
    unfold blockWire wire
    show (writeLong false _ ++ (writeBytes false _ ++ ([syncMarker] ++ []))).flatten = _
    simp [Trace.bytes]
  rw [this]
  simp [writeBytes, writeString, Trace.bytes]
  omega

theorem mem_flatten_le {α β : Type} {f : α → List β} {l : List α} {a : α} (h : a ∈ l) :
    (f a).length ≤ (l.map f).flatten.length := by
  induction l with
  | nil => cases h
  | cons b l ih =>
    simp only [List.map_cons, List.flatten_cons, List.length_append]
    rcases List.mem_cons.1 h with rfl | h
    · omega
    · have := ih h; omega

theorem logOf_snoc (ops : List Op) (op : Op) : logOf E L (ops ++ [op]) = (logOf E L ops).step E L op := by
  simp [logOf, List.foldl_append]

theorem log_pend_flush (ops : List Op) (h : ops.getLast? = some .flush) : accepted (logOf E L ops).pend = 0 := by
  obtain ⟨ys, rfl⟩ := List.getLast?_eq_some_iff.1 h
  rw [logOf_snoc]
  exact (ok_flush (ok_log E ys)).2

/-- What the log says, in terms of records. -/
theorem log_written (hL : L.Inverse) (hk : Known E.codec) (hc : E.codec.length ≤ 2147483647) (hs : E.schema.length ≤ 2147483647)
    (s : Schema) (calls : List Call) {out : List Byte}
    (hout : if calls = [] then out = [] else out = fileOf E L (logOf E L (calls.map (Call.op s))))
    (hsz : out.length < 2 ^ 63) :
    ∃ groups pend bs, Written E L s calls out groups pend bs := by
  have hok := ok_log (L := L) E (calls.map (Call.op s))
  have hall := hok.all
  rw [items_calls] at hall
  obtain ⟨gs, p, h1, h2, h3⟩ := exists_groups _ _ _ _ hall
  have hper : max E.per.toInt 1 < 2 ^ 63 := by
    have := BitVec.toInt_lt (x := E.per)
    simp at this ⊢; omega
  let f : List (MapOrder × Val) → Nat × List Byte := fun g =>
    (accepted (g.map (item L E s)), packed L E.codec (pieces (g.map (item L E s))))
  have hg : ∀ g ∈ gs, 1 ≤ accepted (g.map (item L E s)) ∧ (accepted (g.map (item L E s)) : Int) ≤ max E.per.toInt 1 := by
    intro g hg
    exact hok.groups _ (by rw [h1]; exact List.mem_map_of_mem hg)
  refine ⟨gs, p, gs.map f, h3, pairs_map ?_, ?_, ?_, ?_, ?_⟩
  · intro g hg'
    have := hg g hg'
    refine ⟨accepted_items s g, this.1, this.2, ?_⟩
    rw [← pieces_items (L := L) (E := E)]
    exact packed_packs hL hk _
  · have := hok.pend
    rw [h2, accepted_items] at this; exact this
  · intro hf
    rw [← accepted_items (L := L) (E := E), ← h2]
    apply log_pend_flush
    rw [List.getLast?_map, hf]; rfl
  · intro hne
    rw [if_neg hne] at hout
    obtain ⟨es, h4, h5⟩ := headerWire_eq E hc hs
    refine ⟨es, h4, headerWire E, h5, ?_⟩
    rw [hout]
    unfold fileOf
    rw [h1, blocksWire_eq]
    · rw [List.map_map]; rfl
    · intro es hes
      rw [List.mem_map] at hes
      obtain ⟨g, hg', rfl⟩ := hes
      refine ⟨by have := hg g hg'; omega, ?_⟩
      refine Nat.lt_of_le_of_lt (blockWire_ge (L := L) (E := E) _) ?_
      refine Nat.lt_of_le_of_lt ?_ hsz
      rw [hout]
      unfold fileOf
      rw [List.length_append]
      have := mem_flatten_le (f := blockWire L E.codec) (l := (logOf E L (calls.map (Call.op s))).done)
        (a := g.map (item L E s)) (by rw [h1]; exact List.mem_map_of_mem hg')
      omega
  · intro he
    rw [if_pos he] at hout
    refine ⟨hout, ?_⟩
    rw [he] at h3
    have : gs = [] := by
      cases gs with
      | nil => rfl
      | cons g gs =>
        have h4 := hg g (by simp)
        rw [show records [] = [] from rfl] at h3
        simp only [List.flatten_cons, List.append_assoc, List.append_eq_nil_iff] at h3
        rw [h3.1] at h4
        simp [accepted] at h4
    rw [this]; rfl
variable {view : W → List Byte}

theorem inv_fresh (w : W) (hw : view w = []) : Inv E view [] (newWriter E L w) ⟨[], []⟩ :=
  ⟨rfl, .inl rfl, rfl, fun _ => ⟨hw, rfl⟩, fun h => by cases h⟩

theorem run_good {st : Writer L W} {ops pre post : List Op} {op : Op} (h : ops = pre ++ op :: post)
    (hgood : (run E st ops).2.any writerError = false) (hbad : writerError (step E (run E st pre).1 op).2 = true) : False := by
  have key : ∀ (pre : List Op) (st : Writer L W), writerError (step E (run E st pre).1 op).2 = true →
      (run E st (pre ++ op :: post)).2.any writerError = true := by
    intro pre
    induction pre with
    | nil => intro st h; simp only [List.nil_append, run, List.any_cons] at h ⊢; simp [h]
    | cons a pre ih => intro st h; simp only [List.cons_append, run, List.any_cons] at h ⊢; rw [ih _ h, Bool.or_true]
  have := key pre st hbad
  rw [← h, hgood] at this
  cases this
end
end Verif.Ocf

namespace Verif.Ocf
open Verif Verif.Props
set_option linter.unusedSimpArgs false
set_option linter.unusedVariables false

section
variable {R : Type} {σ : Setting R} {view : R → List Byte} {w r : Schema} {L : Libs}

/-- Complete blocks, whatever follows. -/
theorem contents_before (hd : σ.ro.Delivers view) {codec sync schema : List Byte} (hs : sync.length = 16) {bs raws}
    (h : OpensAll L codec bs raws) {tail : List Byte} {rd : R} (hin : view rd = Spec.Ocf.blocks sync bs ++ tail) :
    ∃ y e, contents L σ.ro ⟨codec, rd, none, schema, sync⟩ = (raws ++ y, e) := by
  obtain ⟨k', hk, h1, h2⟩ := upcoming_blocks hs h tail (σ.ro.size rd + 1) (by
    have := hd.size_ge rd
    rw [hin] at this
    unfold Spec.Ocf.blocks at this
    omega)
  have hr : Reader.rest L σ.ro ⟨codec, rd, none, schema, sync⟩ =
      upcoming L (flatOps false) codec sync (σ.ro.size rd + 1) (Spec.Ocf.blocks sync bs ++ tail) := by
    simp only [Reader.rest]
    rw [sim_upcoming hd, hin]
  refine ⟨(upcoming L (flatOps false) codec sync k' tail).1.flatten, (upcoming L (flatOps false) codec sync k' tail).2, ?_⟩
  unfold contents
  rw [hr]
  unfold Spec.Ocf.blocks
  rw [h1, h2]

/-- Where a file is cut. -/
theorem cut_blocks (sync : List Byte) : ∀ (bs : List (Nat × List Byte)) (p : List Byte), p <+: Spec.Ocf.blocks sync bs →
    ∃ k tail, k ≤ bs.length ∧ p = Spec.Ocf.blocks sync (bs.take k) ++ tail ∧
      ((k = bs.length ∧ tail = []) ∨ ∃ b j, bs[k]? = some b ∧ j < (Spec.Ocf.block sync b).length ∧
        tail = (Spec.Ocf.block sync b).take j)
  | [], p, h => ⟨0, [], by simp, by simpa [Spec.Ocf.blocks] using h, .inl ⟨rfl, rfl⟩⟩
  | b :: bs, p, h => by
    obtain ⟨q, hq⟩ := h
    simp only [Spec.Ocf.blocks, List.map_cons, List.flatten_cons] at hq
    by_cases hl : p.length < (Spec.Ocf.block sync b).length
    · refine ⟨0, p, by simp, by simp [Spec.Ocf.blocks], .inr ⟨b, p.length, rfl, hl, ?_⟩⟩
      have := congrArg (List.take p.length) hq
      rw [List.take_left, List.take_append_of_le_length (by omega)] at this
      exact this
    · obtain ⟨p', rfl⟩ : ∃ p', p = Spec.Ocf.block sync b ++ p' := by
        refine ⟨p.drop (Spec.Ocf.block sync b).length, ?_⟩
        have := congrArg (List.take (Spec.Ocf.block sync b).length) hq
        rw [List.take_left, List.take_append_of_le_length (by omega)] at this
        conv => lhs; rw [← List.take_append_drop (Spec.Ocf.block sync b).length p]
        rw [this]
      rw [List.append_assoc] at hq
      obtain ⟨k, tail, h1, h2, h3⟩ := cut_blocks sync bs p' ⟨q, List.append_cancel_left hq⟩
      refine ⟨k + 1, tail, by simp; omega, ?_, ?_⟩
      · rw [h2]; simp [Spec.Ocf.blocks]
      · rcases h3 with ⟨h3, h4⟩ | ⟨b', j, h3, h4, h5⟩
        · exact .inl ⟨by simp [h3], h4⟩
        · exact .inr ⟨b', j, by simpa using h3, h4, h5⟩

theorem readsTo_self {s : Schema} (hs : WellFormed s) (hl : σ.lim < 2 ^ 63) (x : MapOrder × Val)
    (hv : HasTy s.env σ.lim x.2 s.root) (hn : x.2 ≠ .nil) : ReadsTo σ s s (enc s x) x.2 := by
  intro rest
  obtain ⟨_, rd', h1, h2⟩ := roundtrip_partial (σ := σ.flat) hs (flatOps_delivers false) hl false x.1 hv hn
    (rd := enc s x ++ rest) (rest := rest) rfl
  subst h2
  exact h1

theorem decodesAll_prefix {w r : Schema} {c c' c'' : R} {xs ys : List Val} {e : Err} (h : DecodesAll σ w r c xs c')
    (he : ReadError σ w r c' e) (h' : DecodesAll σ w r c ys c'') : ys <+: xs := by
  induction h generalizing ys with
  | nil =>
    cases h' with
    | nil => exact List.prefix_refl _
    | cons h1 _ => cases h1.det he.failed
  | cons h1 _ ih =>
    cases h' with
    | nil => exact List.nil_prefix
    | cons h2 h3 =>
      cases h1.det h2
      exact List.cons_prefix_cons.2 ⟨rfl, ih he h3⟩

end

section
variable {L : Libs} {W : Type} {E : WEnv W} {view : W → List Byte}

theorem runSer_grows {o : WriterOps W} (ho : o.Takes view) (w : W) (x : SerOut) : view w <+: view (runSer o w x).1 := by
  have h := runChunks_view ho x.1 w
  unfold runSer
  rcases hr : runChunks o w x.1 with ⟨w', _ | e⟩ <;> rw [hr] at h <;> simp only at h ⊢
  · rw [h]; exact List.prefix_append _ _
  · obtain ⟨q, _, h⟩ := h; rw [h]; exact List.prefix_append _ _

theorem header_grows (ho : E.o.Takes view) (s : Writer L W) : view s.w <+: view (ensureHeader E s).1.w := by
  unfold ensureHeader
  split
  · exact List.prefix_refl _
  · have h := runSer_grows ho s.w (serialize headerSchema.env E.bw E.mo (headerVal E.codec E.schema) headerSchema.root)
    unfold writeHeader
    rcases hr : runSer E.o s.w (serialize headerSchema.env E.bw E.mo (headerVal E.codec E.schema) headerSchema.root) with ⟨w', _ | e⟩ <;>
      rw [hr] at h <;> exact h

theorem flushBody_grows (ho : E.o.Takes view) (s : Writer L W) : view s.w <+: view (flushBody E s).1.w := by
  unfold flushBody
  split
  · exact List.prefix_refl _
  · unfold writeBlock
    split
    · have h := runSer_grows ho s.w (serialize blockSchema.env E.bw E.mo (RawBlock.mk s.closed.n s.closed.buf syncMarker).val blockSchema.root)
      simp only [Writer.closed] at h ⊢
      split
      · rename_i hr; rw [hr] at h; exact h
      · rename_i hr; rw [hr] at h; exact h
    · exact List.prefix_refl _

theorem flush_grows (ho : E.o.Takes view) (s : Writer L W) : view s.w <+: view (flush E s).1.w := by
  have h := header_grows ho s
  unfold flush
  rcases hr : ensureHeader E s with ⟨s', _ | e⟩ <;> rw [hr] at h
  · exact h.trans (flushBody_grows ho s')
  · exact h

/-- The output only grows. -/
theorem step_grows (ho : E.o.Takes view) (s : Writer L W) (op : Op) : view s.w <+: view (step E s op).1.w := by
  cases op with
  | flush => exact flush_grows ho s
  | record rec =>
    have h := header_grows ho s
    simp only [step, writeRecord]
    rcases hr : ensureHeader E s with ⟨s', _ | e⟩ <;> rw [hr] at h
    · simp only
      split
      · exact h
      · split
        · refine h.trans ?_
          rename_i cw buf _ _
          exact flush_grows ho { s' with cw := cw, buf := buf, n := s'.n + 1 }
        · exact h
    · exact h

theorem run_grows (ho : E.o.Takes view) : ∀ (ops : List Op) (s : Writer L W), view s.w <+: view (run E s ops).1.w
  | [], s => List.prefix_refl _
  | op :: ops, s => (step_grows ho s op).trans (run_grows ho ops _)

theorem run_append : ∀ (a b : List Op) (s : Writer L W), run E s (a ++ b) =
    ((run E (run E s a).1 b).1, (run E s a).2 ++ (run E (run E s a).1 b).2)
  | [], b, s => rfl
  | op :: a, b, s => by simp only [List.cons_append, run, run_append a b]
end
end Verif.Ocf
