import Verif.Container.Open
/-
Records read out of a container file.
-/
namespace Verif.Ocf
open Verif
set_option linter.unusedSimpArgs false
set_option linter.unusedVariables false

section
variable {R : Type} {o : ReaderOps R} {view : R → List Byte}

/-- What a container reader still delivers: the bytes of the records, and the error after them. -/
def contents (L : Libs) (o : ReaderOps R) (c : Reader R) : List Byte × Err := ((c.rest L o).1.flatten, (c.rest L o).2)

/-- `Read()` of a generated reader and the other calls that read records through a container
reader: the same as reading from any reader, templates/record_container.go:29-49. -/
def _root_.Verif.Setting.inside (σ : Setting R) (L : Libs) : Setting (Reader R) :=
  ⟨readerOps L σ.ro, σ.lim, σ.dv, σ.ord⟩

/-- The same on bytes. -/
def _root_.Verif.Setting.flat (σ : Setting R) : Setting (List Byte) := ⟨flatOps false, σ.lim, σ.dv, σ.ord⟩

/-- Reading a record fails with the error `e`. -/
def ReadError (σ : Setting R) (w r : Schema) (rd : R) (e : Err) : Prop :=
  ∃ prog, compile σ.ord false w r = .ok prog ∧
    Evaluates σ.ro (genOps r.env σ.lim σ.dv) prog rd (.new r.env r.root none) (.error e)

theorem ReadError.failed {σ : Setting R} {w r : Schema} {rd : R} {e : Err} (h : ReadError σ w r rd e) :
    Deserializes σ w r rd .failed := by
  obtain ⟨prog, h1, h2⟩ := h
  exact .failed h1 h2

theorem ReadError.det {σ : Setting R} {w r : Schema} {rd : R} {e e' : Err} (h : ReadError σ w r rd e)
    (h' : ReadError σ w r rd e') : e = e' := by
  obtain ⟨prog, h1, h2⟩ := h
  obtain ⟨prog', h1', h2'⟩ := h'
  rw [h1] at h1'; cases h1'
  have := h2.det h2'
  cases this; rfl

/-- With a fixed error at the end. -/
theorem endsSimAt (e : Err) : ReaderSim endsOps (flatOps false) (fun x bs => x = (bs, e)) (fun _ _ => True) where
  refl _ := trivial
  byteReader := rfl
  readByte h := by cases h
  readFull x bs n h := by
    subst h
    simp only [endsOps, endsReadFull, flatOps, flatReadFull]
    by_cases hn : n ≤ bs.length
    · rw [if_pos hn, if_pos hn]; exact .ok rfl
    · rw [if_neg hn, if_neg hn]
      by_cases hb : bs = []
      · rw [if_pos hb]; exact ExRel.err (E := fun _ _ => True) trivial
      · rw [if_neg hb]; exact ExRel.err (E := fun _ _ => True) trivial
  size x bs h := by subst h; rfl

theorem contents_rel (L : Libs) {c : Reader R} {x : List Byte × Err} :
    ((c.rest L o).1.flatten = x.1 ∧ (c.rest L o).2 = x.2) ↔ contents L o c = x := by
  simp [contents, Prod.ext_iff]

variable {σ : Setting R} {w r : Schema}

/-- A value is read as it is from the bytes of the records. -/
theorem inside_value (hd : σ.ro.Delivers view) {L : Libs} {c : Reader R} {bs z : List Byte} {e : Err} {v : Val}
    (hc : contents L σ.ro c = (bs, e)) (h : Deserializes σ.flat w r bs (.value v z)) :
    ∃ c', Deserializes (σ.inside L) w r c (.value v c') ∧ contents L σ.ro c' = (z, e) := by
  cases h with
  | value h1 h2 h3 =>
    obtain ⟨x, hx, h4⟩ := (endsSimAt e).evaluates_ok _ _ (r := (bs, e)) rfl h2
    subst hx
    obtain ⟨c', hx, h5⟩ := (readerSim hd L).evaluates_ok _ _ ((contents_rel L).2 hc) h4
    exact ⟨c', .value h1 h5 h3, (contents_rel L).1 hx⟩

theorem inside_failed (hd : σ.ro.Delivers view) {L : Libs} {c : Reader R} {bs : List Byte} {e : Err}
    (hc : contents L σ.ro c = (bs, e)) (h : Deserializes σ.flat w r bs .failed) :
    Deserializes (σ.inside L) w r c .failed := by
  cases h with
  | failed h1 h2 =>
    obtain ⟨x, hx, h4⟩ := (endsSimAt e).evaluates_err _ _ (r := (bs, e)) rfl h2
    obtain ⟨e', hx, h5⟩ := (readerSim hd L).evaluates_err _ _ ((contents_rel L).2 hc) h4
    exact .failed h1 h5

/-- The other way round. -/
theorem inside_of_value (hd : σ.ro.Delivers view) (hs : Suited w r) (hg : Grounded w.env) {L : Libs} {c c' : Reader R} {v : Val}
    (h : Deserializes (σ.inside L) w r c (.value v c')) :
    Deserializes σ.flat w r (contents L σ.ro c).1 (.value v (contents L σ.ro c').1) ∧
      (contents L σ.ro c').2 = (contents L σ.ro c).2 := by
  obtain ⟨res, h1, h2⟩ := outcome_total (σ := σ.flat) hs hg (flatOps_delivers false) (contents L σ.ro c).1
  cases h1 with
  | refused h1 => cases h.det (.refused h1)
  | failed h1 h3 => cases h.det (inside_failed hd rfl (.failed h1 h3))
  | junk h1 h3 h4 =>
    unfold Outcome at h2
    simp at h2
  | value h1 h3 h4 =>
    obtain ⟨c2, h5, h6⟩ := inside_value hd rfl (.value h1 h3 h4)
    cases h.det h5
    rw [h6]; exact ⟨.value h1 h3 h4, rfl⟩

/-- Nothing can be read at the end. -/
theorem endsRead_nil {e : Err} {n : Nat} (hn : n ≠ 0) : endsOps.readFull ([], e) n = .error e := by
  simp [endsOps, endsReadFull, hn]

theorem endsNext_nil (e : Err) : endsOps.next ([], e) = .error e := by
  unfold ReaderOps.next
  rw [if_neg (by simp [endsOps]), endsRead_nil (by decide)]

theorem endsVar_nil (e : Err) : readVar endsOps ([], e) = .error e := by
  unfold readVar
  rw [show endsOps.size ([], e) + 1 = Nat.succ 0 from rfl, readVarLoop, endsNext_nil]

theorem starve_read (e : Err) (bs : List Byte) (arg : Int) (fr : Frame) :
    (∃ e', doRead endsOps arg fr ([], e) = .error e' ∧ e' = e) ∨
    ExRel (fun x b => x = ([], e) ∧ b = bs) Eq (doRead endsOps arg fr ([], e)) (doRead (flatOps false) arg fr bs) := by
  unfold doRead
  have hl : readLong endsOps ([], e) = .error e := by unfold readLong; rw [endsVar_nil]; rfl
  by_cases h0 : arg = opNull
  · rw [if_pos h0, if_pos h0]; exact .inr (.ok ⟨rfl, rfl⟩)
  rw [if_neg h0, if_neg h0]
  by_cases h1 : arg = opBoolean
  · left; rw [if_pos h1]; exact ⟨e, by unfold readBool; rw [if_neg (by simp [endsOps]), endsRead_nil (by decide)]; rfl, rfl⟩
  rw [if_neg h1, if_neg h1]
  by_cases h2 : arg = opInt
  · left; rw [if_pos h2]; exact ⟨e, by unfold readInt; rw [endsVar_nil]; rfl, rfl⟩
  rw [if_neg h2, if_neg h2]
  by_cases h3 : arg = opLong
  · left; rw [if_pos h3]; exact ⟨e, by rw [hl]; rfl, rfl⟩
  rw [if_neg h3, if_neg h3]
  by_cases h4 : arg = opUnusedLong
  · left; rw [if_pos h4]; exact ⟨e, by rw [hl]; rfl, rfl⟩
  rw [if_neg h4, if_neg h4]
  by_cases h5 : arg = opFloat
  · left; rw [if_pos h5]; exact ⟨e, by unfold readFloat; rw [endsRead_nil (by decide)]; rfl, rfl⟩
  rw [if_neg h5, if_neg h5]
  by_cases h6 : arg = opDouble
  · left; rw [if_pos h6]; exact ⟨e, by unfold readDouble; rw [endsRead_nil (by decide)]; rfl, rfl⟩
  rw [if_neg h6, if_neg h6]
  by_cases h7 : arg = opBytes
  · left; rw [if_pos h7]; exact ⟨e, by unfold readBytes readSized; rw [hl]; rfl, rfl⟩
  rw [if_neg h7, if_neg h7]
  by_cases h8 : arg = opString
  · left; rw [if_pos h8]; exact ⟨e, by unfold readString readSized; rw [hl]; rfl, rfl⟩
  rw [if_neg h8, if_neg h8]
  unfold readFixed
  by_cases hn : arg - 11 < 0
  · rw [if_pos hn, if_pos hn]; exact .inr (.err rfl)
  rw [if_neg hn, if_neg hn]
  by_cases h0 : (arg - 11).toNat = 0
  · right
    rw [h0]
    exact .ok ⟨rfl, rfl⟩
  · left; rw [endsRead_nil h0]; exact ⟨e, rfl, rfl⟩

/-- A program that reads something somewhere fails with the error at the end. -/
theorem starve {T : Type} {fo : FieldOps T} {prog : Program} {bs z : List Byte} {t t' : T} (e : Err)
    (h : Evaluates (flatOps false) fo prog bs t (.ok (z, t'))) (hz : z ≠ bs) :
    Evaluates endsOps fo prog ([], e) t (.error e) := by
  obtain ⟨n, hn⟩ := h
  simp only [evalProg] at hn
  have := evalInner_stop (o := endsOps) (o' := flatOps false) (St := fun e' => e' = e)
    (Rel := fun x b => x = ([], e) ∧ b = bs) (E := Eq) (fun _ => rfl)
    (by rintro arg fr r r' ⟨rfl, rfl⟩; exact starve_read e r' arg fr)
    fo prog n 0 {} false t (r := ([], e)) (r' := bs) ⟨rfl, rfl⟩
  generalize hX : evalInner endsOps fo prog n 0 {} false ([], e) t = X at this
  generalize evalInner (flatOps false) fo prog n 0 {} false bs t = Y at this hn
  cases this with
  | done h =>
    simp only [Out.done.injEq, Prod.mk.injEq] at hn
    exact absurd (hn.1 ▸ h.2) hz
  | err h => cases hn
  | timeout => cases hn
  | stop h => subst h; exact ⟨n, by simp only [evalProg, hX]⟩

/-- At the end of the records the error found there is returned, if records have at least one
byte. -/
theorem inside_end (hd : σ.ro.Delivers view) {L : Libs} {c : Reader R} {e : Err} (hc : contents L σ.ro c = ([], e))
    {bs z : List Byte} {v : Val} (h : Deserializes σ.flat w r bs (.value v z)) (hz : z ≠ bs) :
    ReadError (σ.inside L) w r c e := by
  cases h with
  | value h1 h2 h3 =>
    obtain ⟨e', hx, h5⟩ := (readerSim hd L).evaluates_err _ _ ((contents_rel L).2 hc) (starve e h2 hz)
    subst hx
    exact ⟨_, h1, h5⟩
end
end Verif.Ocf
