import Verif.Container.Writer
/-
What the container writer has written and what it has buffered.
-/
namespace Verif.Ocf
open Verif
open Verif.Props (wire)
set_option linter.unusedSimpArgs false
set_option linter.unusedVariables false

/-- What was handed to the writer, cut into blocks; the rest is not yet written. -/
structure Log where
  done : List (List SerOut)
  pend : List SerOut

/-- The records that were accepted. -/
def accepted (es : List SerOut) : Nat := es.countP (·.2)

/-- A record, or the beginning of one that turned out to be invalid. -/
def Log.record (per : Int) (l : Log) (e : SerOut) : Log :=
  if e.2 = true ∧ per ≤ (accepted (l.pend ++ [e]) : Int) then ⟨l.done ++ [l.pend ++ [e]], []⟩
  else ⟨l.done, l.pend ++ [e]⟩

def Log.flush (l : Log) : Log := if accepted l.pend = 0 then l else ⟨l.done ++ [l.pend], []⟩

section
variable (L : Libs)

/-- Pieces handed to the compressor. -/
def feed (c : Comp L × List Byte) (ps : Trace) : Comp L × List Byte :=
  ps.foldl (fun c p => ((compOps L).write c p).1) c

/-- The data of a block. -/
def packed (codec : List Byte) (ps : Trace) : List Byte :=
  (feed L (.fresh L codec, []) ps).2 ++ (feed L (.fresh L codec, []) ps).1.close

def pieces (es : List SerOut) : Trace := (es.map (·.1)).flatten

/-- A block of the file. -/
def blockWire (codec : List Byte) (es : List SerOut) : List Byte :=
  wire blockSchema false .id (RawBlock.mk (BitVec.ofNat 64 (accepted es)) (packed L codec (pieces es)) syncMarker).val

variable {L} {W : Type} (E : WEnv W)

def headerWire : List Byte := wire headerSchema false E.mo (headerVal E.codec E.schema)

/-- What is in the file. -/
def fileOf (L : Libs) (l : Log) : List Byte := headerWire E ++ (l.done.map (blockWire L E.codec)).flatten

def Log.step (L : Libs) (l : Log) : Op → Log
  | .record rec => l.record E.per.toInt (rec (Comp.fresh L E.codec).byteWriter)
  | .flush => l.flush

/-- The state of the writer `s` after what the log says. -/
structure Inv (view : W → List Byte) (base : List Byte) (s : Writer L W) (l : Log) : Prop where
  count : s.n = BitVec.ofNat 64 (accepted l.pend)
  below : accepted l.pend = 0 ∨ (accepted l.pend : Int) < E.per.toInt
  comp : (s.cw, s.buf) = feed L (.fresh L E.codec, []) (pieces l.pend)
  before : s.wrote = false → view s.w = base ∧ l = ⟨[], []⟩
  after : s.wrote = true → view s.w = base ++ fileOf E L l

theorem feed_append (c : Comp L × List Byte) (a b : Trace) : feed L c (a ++ b) = feed L (feed L c a) b := by
  simp [feed, List.foldl_append]

theorem feed_bw (c : Comp L × List Byte) : ∀ ps : Trace, (feed L c ps).1.byteWriter = c.1.byteWriter ∧
    (feed L c ps).1.reset = c.1.reset := by
  intro ps
  induction ps generalizing c with
  | nil => exact ⟨rfl, rfl⟩
  | cons p ps ih =>
    have := ih ((compOps L).write c p).1
    rw [feed, List.foldl_cons]
    rw [feed] at this
    rw [this.1, this.2]
    obtain ⟨cw, b⟩ := c
    cases cw <;> exact ⟨rfl, rfl⟩

theorem fresh_reset (codec : List Byte) : (Comp.fresh L codec).reset = Comp.fresh L codec := by
  unfold Comp.fresh
  split
  · rfl
  · split <;> rfl

theorem runChunks_comp (c : Comp L × List Byte) : ∀ ps : Trace, runChunks (compOps L) c ps = (feed L c ps, none) := by
  intro ps
  induction ps generalizing c with
  | nil => rfl
  | cons p ps ih =>
    obtain ⟨cw, b⟩ := c
    rw [runChunks]
    cases cw <;> exact ih _

theorem runSer_comp (c : Comp L × List Byte) (x : SerOut) :
    runSer (compOps L) c x = (feed L c x.1, if x.2 then none else some .invalid) := by
  simp only [runSer, runChunks_comp]

theorem pieces_append (a : List SerOut) (e : SerOut) : pieces (a ++ [e]) = pieces a ++ e.1 := by
  simp [pieces]

theorem accepted_append (a : List SerOut) (e : SerOut) :
    accepted (a ++ [e]) = accepted a + if e.2 = true then 1 else 0 := by
  simp only [accepted, List.countP_append, List.countP_cons, List.countP_nil, Nat.zero_add]

/-- A record's `Serialize` on an `io.Writer`. -/
theorem runSer_view {o : WriterOps W} {view : W → List Byte} (ho : o.Takes view) (s : Schema) (bw : Bool) (mo : MapOrder)
    {v : Val} (hv : (serialize s.env bw mo v s.root).2 = true) (w : W) :
    (∃ w', runSer o w (serialize s.env bw mo v s.root) = (w', none) ∧ view w' = view w ++ wire s bw mo v) ∨
    (∃ w' e, runSer o w (serialize s.env bw mo v s.root) = (w', some (.writer e)) ∧
      ∃ q, q <+: wire s bw mo v ∧ view w' = view w ++ q) := by
  have h := runChunks_view ho (serialize s.env bw mo v s.root).1 w
  unfold runSer
  rcases hr : runChunks o w (serialize s.env bw mo v s.root).1 with ⟨w', _ | e⟩ <;> rw [hr] at h <;>
    simp only at h ⊢
  · exact .inl ⟨w', by rw [hv]; rfl, h⟩
  · exact .inr ⟨w', e, rfl, h⟩

theorem serAll_ok : ∀ l : List SerOut, (∀ x ∈ l, x.2 = true) → (serAll l).2 = true
  | [], _ => rfl
  | a :: l, h => by
    simp only [serAll, SerOut.andThen, h a (by simp), if_true]
    exact serAll_ok l fun x hx => h x (by simp [hx])

theorem header_ser (bw : Bool) (mo : MapOrder) (codec schema : List Byte) :
    serialize headerSchema.env bw mo (headerVal codec schema) headerSchema.root =
      SerOut.andThen ([magic], true) (SerOut.andThen
        (SerOut.andThen (writeLong bw 2, true) ((serAll (mo.perm [1]
          [SerOut.andThen (writeString bw keyCodec, true) (writeBytes bw codec, true),
           SerOut.andThen (writeString bw keySchema, true) (writeBytes bw schema, true)])).andThen (writeLong bw 0, true)))
        (SerOut.andThen ([syncMarker], true) ([], true))) := by
  with_unfolding_all rfl

theorem header_ok (bw : Bool) (mo : MapOrder) (codec schema : List Byte) :
    (serialize headerSchema.env bw mo (headerVal codec schema) headerSchema.root).2 = true := by
  rw [header_ser]
  have : (serAll (mo.perm [1]
          [SerOut.andThen (writeString bw keyCodec, true) (writeBytes bw codec, true),
           SerOut.andThen (writeString bw keySchema, true) (writeBytes bw schema, true)])).2 = true := by
    apply serAll_ok
    intro x hx
    have hx := (mo.isPerm [1] _).subset hx
    simp only [List.mem_cons, List.not_mem_nil, or_false] at hx
    rcases hx with rfl | rfl <;> rfl
  revert this
  generalize serAll _ = x
  intro this
  simp only [SerOut.andThen, this, if_true]

theorem block_ok (bw : Bool) (mo : MapOrder) (b : RawBlock) :
    (serialize blockSchema.env bw mo b.val blockSchema.root).2 = true := by
  with_unfolding_all rfl

theorem block_order (bw bw' : Bool) (mo mo' : MapOrder) (b : RawBlock) :
    wire blockSchema bw mo b.val = wire blockSchema bw' mo' b.val := by
  have : wire blockSchema bw mo b.val = wire blockSchema bw' mo b.val :=
    (ser_same blockSchema.env bw bw' mo b.val blockSchema.root []).1
  rw [this]
  with_unfolding_all rfl

variable {view : W → List Byte} {base : List Byte}

theorem inv_new (w : W) : Inv E view (view w) (newWriter E L w) ⟨[], []⟩ where
  count := rfl
  below := .inl rfl
  comp := rfl
  before _ := ⟨rfl, rfl⟩
  after h := by simp [newWriter] at h

theorem inv_header (ho : E.o.Takes view) {s : Writer L W} {l : Log} (h : Inv E view base s l) :
    (∃ s', ensureHeader E s = (s', none) ∧ s'.wrote = true ∧ Inv E view base s' l) ∨
    (∃ s' e, ensureHeader E s = (s', some (.writer e)) ∧ ∃ q, q <+: headerWire E ∧ view s'.w = base ++ q) := by
  unfold ensureHeader
  cases hw : s.wrote with
  | true => exact .inl ⟨s, by simp, hw, h⟩
  | false =>
    simp only [Bool.false_eq_true, if_false, writeHeader]
    obtain ⟨h1, h2⟩ := h.before hw
    have hb : wire headerSchema E.bw E.mo (headerVal E.codec E.schema) = headerWire E :=
      (ser_same headerSchema.env E.bw false E.mo _ headerSchema.root []).1
    rcases runSer_view ho headerSchema E.bw E.mo (header_ok E.bw E.mo E.codec E.schema) s.w with
      ⟨w', h3, h4⟩ | ⟨w', e, h3, h4⟩
    · refine .inl ⟨{ s with w := w', wrote := true }, by rw [h3], rfl, ⟨h.count, h.below, h.comp, by simp, fun _ => ?_⟩⟩
      simp only [h4, h1, hb, fileOf, h2, List.map_nil, List.flatten_nil, List.append_nil]
    · refine .inr ⟨_, e, by rw [h3], ?_⟩
      rw [hb, h1] at h4
      exact h4

theorem bv_count {k : Nat} {per : BitVec 64} (h : k = 0 ∨ (k : Int) < per.toInt) : k < 2 ^ 63 := by
  have := per.toInt_lt
  rcases h with h | h <;> omega

theorem inv_flushBody (ho : E.o.Takes view) {s : Writer L W} {l : Log} (hw : s.wrote = true)
    (hcount : s.n = BitVec.ofNat 64 (accepted l.pend)) (hlt : accepted l.pend < 2 ^ 63)
    (hcomp : (s.cw, s.buf) = feed L (.fresh L E.codec, []) (pieces l.pend))
    (hview : view s.w = base ++ fileOf E L l) :
    (∃ s', flushBody E s = (s', none) ∧ s'.wrote = true ∧ Inv E view base s' l.flush) ∨
    (∃ s' e, flushBody E s = (s', some (.writer e)) ∧ ∃ q, q <+: fileOf E L l.flush ∧ view s'.w = base ++ q) := by
  unfold flushBody Log.flush
  by_cases h0 : accepted l.pend = 0
  · rw [if_pos h0, if_pos (by rw [hcount, h0]; rfl)]
    exact .inl ⟨s, rfl, hw, hcount, .inl h0, hcomp, by simp [hw], fun _ => hview⟩
  · have hn : s.n.toNat = accepted l.pend := by
      rw [hcount, BitVec.toNat_ofNat, Nat.mod_eq_of_lt (by omega)]
    have hi : s.n.toInt = accepted l.pend := by
      rw [BitVec.toInt_eq_toNat_of_lt (by omega), hn]
    rw [if_neg h0, if_neg (by intro h; rw [h] at hn; simp at hn; omega)]
    have h1 : (feed L (.fresh L E.codec, []) (pieces l.pend)).1 = s.cw := by rw [← hcomp]
    have h2 : (feed L (.fresh L E.codec, []) (pieces l.pend)).2 = s.buf := by rw [← hcomp]
    have hdata : s.buf ++ s.cw.close = packed L E.codec (pieces l.pend) := by rw [packed, h1, h2]
    unfold writeBlock
    rw [if_pos (by show (0 : Int) < s.n.toInt; omega)]
    have hb : wire blockSchema E.bw E.mo (RawBlock.mk s.closed.n s.closed.buf syncMarker).val = blockWire L E.codec l.pend := by
      rw [block_order _ false _ .id, blockWire, ← hdata, ← hcount]; rfl
    have hreset : s.cw.reset = .fresh L E.codec := by
      rw [← h1, (feed_bw _ _).2, fresh_reset]
    have hfile : fileOf E L ⟨l.done ++ [l.pend], []⟩ = fileOf E L l ++ blockWire L E.codec l.pend := by
      simp [fileOf]
    rcases runSer_view ho blockSchema E.bw E.mo (block_ok E.bw E.mo (RawBlock.mk s.closed.n s.closed.buf syncMarker)) s.w with
      ⟨w', h3, h4⟩ | ⟨w', e, h3, q, h4, h5⟩
    · refine .inl ⟨{ s.closed with w := w', buf := [], n := 0 }, by rw [show s.closed.w = s.w from rfl, h3], hw,
        ⟨rfl, .inl rfl, ?_, by simp [Writer.closed, hw], fun _ => ?_⟩⟩
      · simp only [Writer.closed, hreset]; rfl
      · simp only [h4, hview, hb, hfile, List.append_assoc]
    · refine .inr ⟨_, e, by rw [show s.closed.w = s.w from rfl, h3], fileOf E L l ++ q, ?_, ?_⟩
      · rw [hfile]; rw [hb] at h4; exact (List.prefix_append_right_inj _).2 h4
      · simp only [h5, hview, List.append_assoc]

/-- A call: without a failing writer the state follows the log. With a failing writer, the
beginning of the file has been written that the log says. -/
theorem inv_step (ho : E.o.Takes view) {s : Writer L W} {l : Log} (h : Inv E view base s l) (op : Op) :
    (∃ s' r, step E s op = (s', r) ∧ s'.wrote = true ∧ Inv E view base s' (l.step E L op) ∧
      r = (match op with
        | .flush => none
        | .record rec => if (rec (Comp.fresh L E.codec).byteWriter).2 then none else some .invalid)) ∨
    (∃ s' e, step E s op = (s', some (.writer e)) ∧ ∃ q, q <+: fileOf E L (l.step E L op) ∧ view s'.w = base ++ q) := by
  have hpre : ∀ l', headerWire E <+: fileOf E L l' := fun l' => List.prefix_append _ _
  cases op with
  | flush =>
    simp only [step, flush, Log.step]
    rcases inv_header E ho h with ⟨s', h1, h2, h3⟩ | ⟨s', e, h1, q, h2, h3⟩
    · rw [h1]
      simp only
      rcases inv_flushBody E ho h2 h3.count (bv_count h3.below) h3.comp (h3.after h2) with
        ⟨s'', h4, h5, h6⟩ | ⟨s'', e, h4, h5⟩
      · exact .inl ⟨s'', none, h4, h5, h6, rfl⟩
      · exact .inr ⟨s'', e, h4, h5⟩
    · rw [h1]
      exact .inr ⟨s', e, rfl, q, h2.trans (hpre _), h3⟩
  | record rec =>
    simp only [step, writeRecord, Log.step]
    rcases inv_header E ho h with ⟨s', h1, h2, h3⟩ | ⟨s', e, h1, q, hq, h3⟩
    · rw [h1]
      simp only
      have hbw : s'.cw.byteWriter = (Comp.fresh L E.codec).byteWriter := by
        have := (feed_bw (Comp.fresh L E.codec, []) (pieces l.pend)).1
        rw [← h3.comp] at this
        exact this
      rw [hbw, h3.comp, runSer_comp]
      generalize rec (Comp.fresh L E.codec).byteWriter = e
      have hcomp : feed L (feed L (Comp.fresh L E.codec, []) (pieces l.pend)) e.1
          = feed L (Comp.fresh L E.codec, []) (pieces (l.pend ++ [e])) := by
        rw [pieces_append, feed_append]
      rw [hcomp]
      rcases hf : feed L (Comp.fresh L E.codec, []) (pieces (l.pend ++ [e])) with ⟨cw, buf⟩
      have hbelow := bv_count h3.below
      cases hacc : e.2 with
      | false =>
        simp only [Bool.false_eq_true, if_false, Log.record, hacc, false_and]
        have ha : accepted (l.pend ++ [e]) = accepted l.pend := by rw [accepted_append, hacc]; simp
        refine .inl ⟨_, _, rfl, h2, ⟨?_, ?_, hf.symm, by simp [h2], fun _ => h3.after h2⟩, rfl⟩
        · rw [ha]; exact h3.count
        · rw [ha]; exact h3.below
      | true =>
        have ha : accepted (l.pend ++ [e]) = accepted l.pend + 1 := by rw [accepted_append, hacc]; simp
        have hn : s'.n + 1 = BitVec.ofNat 64 (accepted l.pend + 1) := by
          rw [h3.count]; simp [BitVec.ofNat_add]
        have hlt : accepted l.pend + 1 < 2 ^ 63 := by
          have := E.per.toInt_lt
          rcases h3.below with h | h <;> omega
        have hi : (s'.n + 1).toInt = accepted l.pend + 1 := by
          rw [hn, BitVec.toInt_eq_toNat_of_lt (by rw [BitVec.toNat_ofNat, Nat.mod_eq_of_lt (by omega)]; omega),
            BitVec.toNat_ofNat, Nat.mod_eq_of_lt (by omega)]
          rfl
        simp only [if_true, Log.record, hacc, true_and, ha, hi]
        by_cases hp : E.per.toInt ≤ (accepted l.pend : Int) + 1
        · rw [if_pos hp, if_pos (by exact_mod_cast hp)]
          simp only [flush, ensureHeader, h2, if_true]
          have hfl : (Log.flush ⟨l.done, l.pend ++ [e]⟩) = ⟨l.done ++ [l.pend ++ [e]], []⟩ := by
            unfold Log.flush; rw [if_neg]; simp only [ha]; omega
          rcases inv_flushBody (l := ⟨l.done, l.pend ++ [e]⟩)
              (s := { s' with cw := cw, buf := buf, n := s'.n + 1 }) E ho h2 (by simp only [hn, ha]) (by simp only [ha]; exact hlt)
              (by simp only [hf]) (h3.after h2) with ⟨s'', h4, h5, h6⟩ | ⟨s'', e, h4, h5⟩
          · rw [hfl] at h6
            rw [h2] at h4
            exact .inl ⟨s'', none, h4, h5, h6, rfl⟩
          · rw [hfl] at h5
            rw [h2] at h4
            exact .inr ⟨s'', e, h4, h5⟩
        · rw [if_neg hp, if_neg (by exact_mod_cast hp)]
          refine .inl ⟨_, _, rfl, h2, ⟨?_, ?_, hf.symm, by simp [h2], fun _ => h3.after h2⟩, rfl⟩
          · simp only [ha, hn]
          · right; simp only [ha]; omega
    · rw [h1]
      exact .inr ⟨s', e, rfl, q, hq.trans (hpre _), h3⟩

end
end Verif.Ocf
