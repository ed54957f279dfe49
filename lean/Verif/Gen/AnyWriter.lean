import Verif.Gen.SerEnc
/-
Serializing to an `io.Writer` that may fail.
-/
namespace Verif
set_option linter.unusedSimpArgs false

/-- The error a serializer returns: that of the writer, or its own (a union without a member,
templates/union.go:50). -/
inductive WErr where
  | writer (code : Nat)
  | invalid
  deriving DecidableEq

/-- An `io.Writer`: `Write(p)` changes the writer and may return an error. -/
structure WriterOps (W : Type) where
  write : W → List Byte → W × Option Nat

/-- The contract of `io.Writer` for a writer that has so far taken the bytes `view w`: without
an error all of `p` was taken, with an error some beginning of it. -/
structure WriterOps.Takes {W : Type} (o : WriterOps W) (view : W → List Byte) : Prop where
  ok : ∀ w p w', o.write w p = (w', none) → view w' = view w ++ p
  err : ∀ w p w' e, o.write w p = (w', some e) → ∃ q, q <+: p ∧ view w' = view w ++ q

/-- Calls of `Write` one after the other, `if err != nil { return err }` in between. -/
def runChunks {W : Type} (o : WriterOps W) : W → Trace → W × Option Nat
  | w, [] => (w, none)
  | w, c :: t => match o.write w c with
    | (w', none) => runChunks o w' t
    | (w', some e) => (w', some e)

/-- A serializer on a writer. What a serializer does next depends on the writer only through
`if err != nil { return err }` after every call, in v10/vm/writers.go and in the templates
(array.go:11-23, map.go:10-26, union.go:31-51, record.go:68-77); so it makes the calls of its
trace until one fails. `runSer_andThen` says that this agrees with putting serializers
together in that way. -/
def runSer {W : Type} (o : WriterOps W) (w : W) (s : SerOut) : W × Option WErr :=
  match runChunks o w s.1 with
  | (w', some e) => (w', some (.writer e))
  | (w', none) => (w', if s.2 then none else some .invalid)

theorem runChunks_append {W : Type} (o : WriterOps W) (w : W) (a b : Trace) :
    runChunks o w (a ++ b) = match runChunks o w a with
      | (w', none) => runChunks o w' b
      | (w', some e) => (w', some e) := by
  induction a generalizing w with
  | nil => rfl
  | cons c a ih =>
    simp only [List.cons_append, runChunks]
    rcases h : o.write w c with ⟨w', _ | e⟩ <;> simp [ih]

/-- `err = a(w); if err != nil { return err }; return b(w)`. -/
theorem runSer_andThen {W : Type} (o : WriterOps W) (w : W) (a b : SerOut) :
    runSer o w (a.andThen b) = match runSer o w a with
      | (w', none) => runSer o w' b
      | (w', some e) => (w', some e) := by
  rcases a with ⟨ta, fa⟩
  cases fa
  · simp only [SerOut.andThen, runSer]
    rcases h : runChunks o w ta with ⟨w', _ | e⟩ <;> simp [h]
  · simp only [SerOut.andThen, runSer, runChunks_append, if_true]
    rcases h : runChunks o w ta with ⟨w', _ | e⟩ <;> simp

theorem runChunks_view {W : Type} {o : WriterOps W} {view : W → List Byte} (ho : o.Takes view) :
    ∀ (t : Trace) (w : W), match runChunks o w t with
      | (w', none) => view w' = view w ++ t.bytes
      | (w', some _) => ∃ q, q <+: t.bytes ∧ view w' = view w ++ q := by
  intro t
  induction t with
  | nil => intro w; simp [runChunks, Trace.bytes]
  | cons c t ih =>
    intro w
    rw [runChunks]
    rcases h : o.write w c with ⟨w', _ | e⟩
    · have h1 := ho.ok w c w' h
      have h2 := ih w'
      simp only
      rcases h3 : runChunks o w' t with ⟨w'', _ | e⟩ <;> rw [h3] at h2 <;> simp only at h2 ⊢
      · rw [h2, h1]; simp [Trace.bytes]
      · obtain ⟨q, hq, hv⟩ := h2
        refine ⟨c ++ q, ?_, by rw [hv, h1, List.append_assoc]⟩
        simpa [Trace.bytes] using hq
    · obtain ⟨q, hq, hv⟩ := ho.err w c w' e h
      refine ⟨q, ?_, hv⟩
      simp only [Trace.bytes, List.flatten_cons]
      exact hq.trans (List.prefix_append _ _)

/-- A writer with room for `cap` bytes: what does not fit is cut off, with an error. -/
def boundedWriter (cap : Nat) : WriterOps (List Byte) where
  write w p := if w.length + p.length ≤ cap then (w ++ p, none) else (w ++ p.take (cap - w.length), some 0)

theorem boundedWriter_takes (cap : Nat) : (boundedWriter cap).Takes (fun w => w) where
  ok w p w' h := by
    simp only [boundedWriter] at h
    split at h <;> cases h
    rfl
  err w p w' e h := by
    simp only [boundedWriter] at h
    split at h <;> cases h
    exact ⟨_, List.take_prefix _ _, rfl⟩

theorem runChunks_bounded (cap : Nat) : ∀ (t : Trace) (w : List Byte), w.length ≤ cap →
    runChunks (boundedWriter cap) w t =
      if w.length + t.bytes.length ≤ cap then (w ++ t.bytes, none)
      else (w ++ t.bytes.take (cap - w.length), some 0) := by
  intro t
  induction t with
  | nil => intro w hw; simp [runChunks, Trace.bytes, hw]
  | cons c t ih =>
    intro w hw
    rw [runChunks]
    simp only [boundedWriter, Trace.bytes, List.flatten_cons, List.length_append]
    by_cases h : w.length + c.length ≤ cap
    · rw [if_pos h]
      simp only
      have := ih (w ++ c) (by simpa using h)
      simp only [boundedWriter, Trace.bytes, List.length_append] at this
      rw [this]
      by_cases h2 : w.length + c.length + (List.flatten t).length ≤ cap
      · rw [if_pos h2, if_pos (by omega), List.append_assoc]
      · rw [if_neg h2, if_neg (by omega), List.take_append, List.take_of_length_le (l := c) (by omega),
          List.append_assoc, Nat.sub_add_eq]
    · rw [if_neg h, if_neg (by omega)]
      simp only
      rw [List.take_append_of_le_length (by omega)]

/-! ### ByteWriters and plain writers -/

/-- The same bytes, the same error or none. -/
def SameOut (a b : SerOut) : Prop := a.1.bytes = b.1.bytes ∧ a.2 = b.2

theorem SameOut.andThen {a a' b b' : SerOut} (h : SameOut a a') (h' : SameOut b b') :
    SameOut (a.andThen b) (a'.andThen b') := by
  rcases a with ⟨t, f⟩; rcases a' with ⟨t', f'⟩
  obtain ⟨h1, rfl⟩ := h
  cases f
  · exact ⟨h1, rfl⟩
  · refine ⟨?_, h'.2⟩
    simp only [SerOut.andThen, Trace.bytes, if_true, List.flatten_append]
    exact congr (congrArg _ h1) h'.1

/-- Item by item. -/
inductive SameOuts : List SerOut → List SerOut → Prop
  | nil : SameOuts [] []
  | cons {a b l l'} : SameOut a b → SameOuts l l' → SameOuts (a :: l) (b :: l')

theorem SameOuts.length {l l'} (h : SameOuts l l') : l.length = l'.length := by
  induction h with
  | nil => rfl
  | cons _ _ ih => simp [ih]

theorem SameOuts.get {l l'} (h : SameOuts l l') (i : Nat) :
    (l[i]? = none ∧ l'[i]? = none) ∨ ∃ a b, l[i]? = some a ∧ l'[i]? = some b ∧ SameOut a b := by
  induction h generalizing i with
  | nil => simp
  | cons h _ ih =>
    cases i with
    | zero => exact .inr ⟨_, _, rfl, rfl, h⟩
    | succ i => simpa using ih i

theorem SameOuts.perm {l l'} (h : SameOuts l l') (ord : MapOrder) (p : List Nat) :
    SameOuts (ord.perm p l) (ord.perm p l') := by
  unfold MapOrder.perm
  rw [← h.length]
  generalize ord.idx p l.length = is
  induction is with
  | nil => exact .nil
  | cons i is ih =>
    simp only [List.filterMap_cons]
    rcases h.get i with ⟨h1, h2⟩ | ⟨a, b, h1, h2, h3⟩ <;> rw [h1, h2]
    · exact ih
    · exact .cons h3 ih

theorem SameOuts.all {l l'} (h : SameOuts l l') : SameOut (serAll l) (serAll l') := by
  induction h with
  | nil => exact ⟨rfl, rfl⟩
  | cons h _ ih => exact h.andThen ih

theorem SameOut.rfl {a : SerOut} : SameOut a a := ⟨.refl _, .refl _⟩

section
variable (env : Env) (bw bw' : Bool) (ord : MapOrder)

theorem emit_bytes' (bw : Bool) (bs : List Byte) : (emit bw bs).bytes = bs := by
  simp only [Trace.bytes, emit_bytes]

theorem sameLong (x : BitVec 64) : SameOut (writeLong bw x, true) (writeLong bw' x, true) :=
  ⟨by simp only [writeLong, emit_bytes'], .refl _⟩

theorem sameLongF (x : BitVec 64) : SameOut (writeLong bw x, false) (writeLong bw' x, false) :=
  ⟨by simp only [writeLong, emit_bytes'], .refl _⟩

theorem sameStr (x : List Byte) : SameOut (writeString bw x, true) (writeString bw' x, true) := by
  refine ⟨?_, .refl _⟩
  have := (sameLong bw bw' (BitVec.ofNat 64 x.length)).1
  simp only [Trace.bytes] at this
  simp only [writeString, Trace.bytes, List.flatten_append, this]

mutual
theorem ser_same : ∀ (v : Val) (t : Ty) (p : List Nat), SameOut (ser env bw ord v t p) (ser env bw' ord v t p)
  | .null, t, _ => by cases t <;> exact .rfl
  | .bool _, t, _ => by cases t <;> exact .rfl
  | .int v, t, _ => by
    cases t <;> first | exact .rfl | exact ⟨by simp only [ser, writeInt, emit_bytes'], .refl _⟩
  | .long v, t, _ => by
    cases t <;> first | exact .rfl | exact sameLong bw bw' v
  | .float v, t, _ => by
    cases t <;> first | exact .rfl | exact ⟨by simp only [ser, writeFloat, emit_bytes'], .refl _⟩
  | .double v, t, _ => by
    cases t <;> first | exact .rfl | exact ⟨by simp only [ser, writeDouble, emit_bytes'], .refl _⟩
  | .bytes v, t, _ => by cases t <;> first | exact .rfl | exact sameStr bw bw' v
  | .string v, t, _ => by cases t <;> first | exact .rfl | exact sameStr bw bw' v
  | .fixed _, t, _ => by cases t <;> exact .rfl
  | .enum v, t, _ => by
    cases t <;> first | exact .rfl | exact ⟨by simp only [ser, writeInt, emit_bytes'], .refl _⟩
  | .array vs, t, p => by
    cases t <;> first | exact .rfl | skip
    simp only [ser]
    split
    · exact sameLong ..
    · exact (sameLong ..).andThen ((ser_sames vs _ 0 p).all.andThen (sameLong ..))
  | .map es, t, p => by
    cases t <;> first | exact .rfl | skip
    simp only [ser]
    split
    · exact sameLong ..
    · exact (sameLong ..).andThen (((ser_sameEntries es _ 0 p).perm ord p).all.andThen (sameLong ..))
  | .nil, t, _ => by
    cases t <;> first | exact .rfl | skip
    simp only [ser]
    split
    · exact sameLong ..
    · exact .rfl
  | .union tag none, t, _ => by
    cases t <;> first | exact .rfl | skip
    exact sameLongF ..
  | .union tag (some v), t, p => by
    cases t <;> first | exact .rfl | skip
    simp only [ser]
    refine (sameLong ..).andThen ?_
    split
    · exact .rfl
    · split
      · exact .rfl
      · exact ser_same v _ _
  | .record vs, t, p => by
    cases t <;> first | exact .rfl | skip
    simp only [ser]
    split
    · split
      · exact ser_sameFields vs _ 0 p
      · exact .rfl
    · exact .rfl
theorem ser_sames : ∀ (vs : List Val) (t : Ty) (i : Nat) (p : List Nat),
    SameOuts (serItems env bw ord vs t i p) (serItems env bw' ord vs t i p)
  | [], _, _, _ => .nil
  | v :: vs, t, i, p => .cons (ser_same v t _) (ser_sames vs t (i + 1) p)
theorem ser_sameEntries : ∀ (es : List (List Byte × Val)) (t : Ty) (i : Nat) (p : List Nat),
    SameOuts (serEntries env bw ord es t i p) (serEntries env bw' ord es t i p)
  | [], _, _, _ => .nil
  | (k, v) :: es, t, i, p => .cons ((sameStr bw bw' k).andThen (ser_same v t _)) (ser_sameEntries es t (i + 1) p)
theorem ser_sameFields : ∀ (vs : List Val) (fs : List Field) (i : Nat) (p : List Nat),
    SameOut (serFields env bw ord vs fs i p) (serFields env bw' ord vs fs i p)
  | [], fs, _, _ => by cases fs <;> exact .rfl
  | v :: vs, fs, i, p => by
    cases fs with
    | nil => exact .rfl
    | cons f fs => exact (ser_same v f.ty _).andThen (ser_sameFields vs fs (i + 1) p)
end
end
end Verif
