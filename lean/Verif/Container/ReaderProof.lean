import Verif.Container.Reader
/-
What the container reader delivers.
-/
namespace Verif.Ocf
open Verif
set_option linter.unusedSimpArgs false
set_option linter.unusedVariables false

section
variable {R : Type} {o : ReaderOps R} {view : R → List Byte}

theorem sim_deserializeBlock (hd : o.Delivers view) (r : R) :
    vmap view (deserializeBlock o r) = deserializeBlock (flatOps o.byteReader) (view r) := by
  unfold deserializeBlock
  rw [vmap_bindOk (view := view) _ _ (fun n r1 => bindOk (readBytes (flatOps o.byteReader) r1) fun d r2 =>
      bindOk (readFixed (flatOps o.byteReader) 16 r2) fun s r3 => .ok (⟨n, d, s⟩, r3)), sim_readLong hd]
  intro n r1
  rw [vmap_bindOk (view := view) _ _ (fun d r2 =>
      bindOk (readFixed (flatOps o.byteReader) 16 r2) fun s r3 => .ok (⟨n, d, s⟩, r3))]
  · rw [readBytes, sim_readSized hd]; rfl
  intro d r2
  rw [vmap_bindOk (view := view) _ _ (fun s r3 => .ok (⟨n, d, s⟩, r3)), sim_readFixed hd]
  intro s r3; rfl

theorem deserializeBlock_kind (k : Bool) (bs : List Byte) :
    deserializeBlock (flatOps k) bs = deserializeBlock (flatOps false) bs := by
  cases k
  · rfl
  · unfold deserializeBlock
    rw [readLong_plain_byte]
    congr; funext n r1
    rw [readBytes, readBytes, readSized_plain_byte]
    rfl

theorem sim_openBlock (hd : o.Delivers view) (L : Libs) (codec sync : List Byte) (r : R) :
    vmap view (openBlock L o codec sync r) = openBlock L (flatOps false) codec sync (view r) := by
  unfold openBlock
  rw [vmap_bindOk (view := view) _ _ (fun b r' => (openRaw L codec sync b).map fun blk => (blk, r')),
    sim_deserializeBlock hd, deserializeBlock_kind]
  intro b r'
  cases openRaw L codec sync b <;> rfl

theorem deserializeBlock_shorter {bs bs' : List Byte} {b : RawBlock}
    (h : deserializeBlock (flatOps false) bs = .ok (b, bs')) : bs'.length + 17 ≤ bs.length := by
  unfold deserializeBlock at h
  cases h1 : readLong (flatOps false) bs with
  | error e => rw [h1] at h; cases h
  | ok x =>
    obtain ⟨n, r1⟩ := x
    rw [h1] at h
    simp only [bindOk] at h
    cases h2 : readBytes (flatOps false) r1 with
    | error e => rw [h2] at h; cases h
    | ok x =>
      obtain ⟨d, r2⟩ := x
      rw [h2] at h
      simp only at h
      cases h3 : readFixed (flatOps false) 16 r2 with
      | error e => rw [h3] at h; cases h
      | ok x =>
        obtain ⟨s, r3⟩ := x
        rw [h3] at h
        cases h
        have e1 := readLong_consumes h1
        have e2 : r2.length ≤ r1.length := (noLook_readSized .bytesRange false _ _ _ h2).2
        have e3 : r2.length = bs'.length + 16 := by
          simp only [readFixed, show ¬ ((16 : Int) < 0) from by decide, if_false, flatOps, flatReadFull] at h3
          split at h3
          · rename_i hl
            cases h3
            simp at hl ⊢; omega
          · split at h3 <;> cases h3
        omega

theorem openBlock_shorter (hd : o.Delivers view) {L : Libs} {codec sync : List Byte} {r r' : R} {b : Blk}
    (h : openBlock L o codec sync r = .ok (b, r')) : (view r').length < (view r).length := by
  have h1 := sim_openBlock hd L codec sync r
  rw [h] at h1
  simp only [vmap, openBlock] at h1
  cases h2 : deserializeBlock (flatOps false) (view r) with
  | error e => rw [h2] at h1; cases h1
  | ok x =>
    obtain ⟨raw, r1⟩ := x
    rw [h2] at h1
    simp only [bindOk] at h1
    cases h3 : openRaw L codec sync raw with
    | error e => rw [h3] at h1; cases h1
    | ok y =>
      rw [h3] at h1
      cases h1
      have := deserializeBlock_shorter h2
      omega

/-- Once the bound on the number of blocks exceeds the number of bytes left it does not matter. -/
theorem upcoming_fuel (hd : o.Delivers view) (L : Libs) (codec sync : List Byte) : ∀ (k m : Nat) (r : R),
    (view r).length < k → (view r).length < m → upcoming L o codec sync k r = upcoming L o codec sync m r := by
  intro k
  induction k with
  | zero => intro m r h; omega
  | succ k ih =>
    intro m r h1 h2
    cases m with
    | zero => omega
    | succ m =>
      simp only [upcoming]
      cases h : openBlock L o codec sync r with
      | error e => rfl
      | ok x =>
        obtain ⟨b, r'⟩ := x
        have := openBlock_shorter hd h
        simp only [ih m r' (by omega) (by omega)]

theorem sim_upcoming (hd : o.Delivers view) (L : Libs) (codec sync : List Byte) : ∀ (k : Nat) (r : R),
    upcoming L o codec sync k r = upcoming L (flatOps false) codec sync k (view r) := by
  intro k
  induction k with
  | zero => intro r; rfl
  | succ k ih =>
    intro r
    simp only [upcoming]
    rw [← sim_openBlock hd]
    cases h : openBlock L o codec sync r with
    | error e => rfl
    | ok x =>
      obtain ⟨b, r'⟩ := x
      simp only [vmap, ih]

/-- What comes after the blocks opened so far. -/
def Reader.later (L : Libs) (o : ReaderOps R) (c : Reader R) : List (List Byte) × Err :=
  upcoming L o c.codec c.sync (o.size c.reader + 1) c.reader

/-- A block, then what comes later. -/
def Blk.andThen (b : Blk) (x : List (List Byte) × Err) : List (List Byte) × Err :=
  if b.fin = .eof then (b.pieces ++ x.1, x.2) else (b.pieces, b.fin)

theorem rest_none (L : Libs) (o : ReaderOps R) {c : Reader R} (h : c.cur = none) : c.rest L o = c.later L o := by
  simp only [Reader.rest, h, Reader.later]

theorem rest_some (L : Libs) (o : ReaderOps R) {c : Reader R} {b : Blk} (h : c.cur = some b) :
    c.rest L o = b.andThen (c.later L o) := by
  simp only [Reader.rest, h, Reader.later, Blk.andThen]

theorem later_err (hd : o.Delivers view) {L : Libs} {c : Reader R} {e : Err}
    (h : openBlock L o c.codec c.sync c.reader = .error e) : c.later L o = ([], e) := by
  simp only [Reader.later, upcoming, h]

theorem later_ok (hd : o.Delivers view) {L : Libs} {c : Reader R} {b : Blk} {r' : R}
    (h : openBlock L o c.codec c.sync c.reader = .ok (b, r')) :
    c.later L o = b.andThen ({ c with reader := r', cur := some b }.later L o) := by
  have h1 := openBlock_shorter hd h
  have h2 := hd.size_ge c.reader
  have h3 := hd.size_ge r'
  have e : upcoming L o c.codec c.sync (o.size c.reader + 1) c.reader
      = b.andThen (upcoming L o c.codec c.sync (o.size c.reader) r') := by
    rw [upcoming, h]; rfl
  unfold Reader.later
  rw [e, upcoming_fuel hd L c.codec c.sync (o.size c.reader) (o.size r' + 1) r' (by omega) (by omega)]

/-- One piece of what is left is delivered, or part of it. -/
def takePiece (x : List (List Byte) × Err) (n : Nat) : Except Err (List Byte × (List (List Byte) × Err)) :=
  match x.1 with
  | [] => .error x.2
  | p :: ps => if p.length ≤ n then .ok (p, (ps, x.2)) else .ok (p.take n, (p.drop n :: ps, x.2))

/-- The readers agree. -/
inductive TakeRel (L : Libs) (o : ReaderOps R) : Except Err (List Byte × Reader R) →
    Except Err (List Byte × (List (List Byte) × Err)) → Prop
  | ok {bs c x} : c.rest L o = x → TakeRel L o (.ok (bs, c)) (.ok (bs, x))
  | err {e} : TakeRel L o (.error e) (.error e)

theorem takeRel_iff {L : Libs} {a : Except Err (List Byte × Reader R)} {x}
    (h : TakeRel L o a x) : (∀ e, x = .error e → a = .error e) ∧
      (∀ bs y, x = .ok (bs, y) → ∃ c, a = .ok (bs, c) ∧ c.rest L o = y) := by
  cases h with
  | ok h => exact ⟨by simp, by intro bs y he; cases he; exact ⟨_, rfl, h⟩⟩
  | err => exact ⟨by intro e he; cases he; rfl, by simp⟩

theorem readLoop_spec (hd : o.Delivers view) (L : Libs) (n : Nat) : ∀ (k : Nat) (c : Reader R) (b : Blk),
    c.cur = some b → (view c.reader).length < k → TakeRel L o (c.readLoop L o n k b) (takePiece (c.rest L o) n) := by
  intro k
  induction k with
  | zero => intro c b _ h; omega
  | succ k ih =>
    intro c b hb hk
    rw [rest_some L o hb]
    rw [Reader.readLoop]
    obtain ⟨ps, fin⟩ := b
    cases ps with
    | cons p ps =>
      have hx : (Blk.andThen ⟨p :: ps, fin⟩ (c.later L o)) =
          (p :: ((Blk.mk ps fin).andThen (c.later L o)).1, ((Blk.mk ps fin).andThen (c.later L o)).2) := by
        simp only [Blk.andThen]
        split <;> rfl
      rw [hx]
      simp only [takePiece, Blk.read]
      by_cases hp : p.length ≤ n
      · simp only [hp, if_true]
        have : ({ c with cur := some ⟨ps, fin⟩ } : Reader R).rest L o = (Blk.mk ps fin).andThen (c.later L o) :=
          rest_some L o rfl
        split
        · exact .ok this
        · rename_i h0
          simp only [ne_eq, Classical.not_not] at h0
          subst h0
          exact .ok this
      · simp only [hp, if_false]
        have : ({ c with cur := some ⟨p.drop n :: ps, fin⟩ } : Reader R).rest L o
            = (Blk.mk (p.drop n :: ps) fin).andThen (c.later L o) := rest_some L o rfl
        have h2 : (Blk.mk (p.drop n :: ps) fin).andThen (c.later L o) =
            (p.drop n :: ((Blk.mk ps fin).andThen (c.later L o)).1, ((Blk.mk ps fin).andThen (c.later L o)).2) := by
          simp only [Blk.andThen]
          split <;> rfl
        rw [h2] at this
        split
        · exact .ok this
        · rename_i h0
          simp only [ne_eq, Classical.not_not] at h0
          rw [h0]
          exact .ok this
    | nil =>
      simp only [Blk.read, ne_eq, not_true_eq_false, if_false]
      by_cases hf : fin = .eof
      · subst hf
        simp only [Blk.andThen, if_true, List.nil_append]
        cases h : openBlock L o c.codec c.sync c.reader with
        | error e =>
          rw [later_err hd h]
          exact .err
        | ok x =>
          obtain ⟨b', r'⟩ := x
          simp only
          have h1 := openBlock_shorter hd h
          have := ih { c with reader := r', cur := some b' } b' rfl (by simp only; omega)
          rwa [rest_some L o (c := { c with reader := r', cur := some b' }) rfl, ← later_ok hd h] at this
      · simp only [Blk.andThen, hf, if_false, takePiece]
        exact .err

/-- `Read` delivers from what is left. -/
theorem read_spec (hd : o.Delivers view) (L : Libs) (n : Nat) (c : Reader R) :
    TakeRel L o (c.read L o n) (takePiece (c.rest L o) n) := by
  have hs := hd.size_ge c.reader
  unfold Reader.read
  cases hc : c.cur with
  | some b => exact readLoop_spec hd L n _ c b hc (by omega)
  | none =>
    rw [rest_none L o hc]
    cases h : openBlock L o c.codec c.sync c.reader with
    | error e => rw [later_err hd h]; exact .err
    | ok x =>
      obtain ⟨b, r'⟩ := x
      simp only
      have h1 := openBlock_shorter hd h
      have := readLoop_spec hd L n (o.size c.reader + 2) { c with reader := r', cur := some b } b rfl
        (by simp only; omega)
      rwa [rest_some L o (c := { c with reader := r', cur := some b }) rfl, ← later_ok hd h] at this

/-- `io.ReadFull` on data that ends with an error. -/
def endsReadFull (x : List Byte × Err) (n : Nat) : Except Err (List Byte × (List Byte × Err)) :=
  if n ≤ x.1.length then .ok (x.1.take n, (x.1.drop n, x.2))
  else .error (if x.2 = .eof ∧ x.1 ≠ [] then .unexpectedEOF else x.2)

/-- A reader without `ReadByte` that delivers the bytes and then the error. -/
def endsOps : ReaderOps (List Byte × Err) where
  byteReader := false
  readByte x := (.error .eof, x)
  readFull := endsReadFull
  size x := x.1.length

theorem fullLoop_ok (hd : o.Delivers view) (L : Libs) : ∀ (fuel : Nat) (got : List Byte) (need : Nat) (c : Reader R),
    (c.rest L o).1.length + 1 < fuel → need ≤ (c.rest L o).1.flatten.length →
    ∃ c', c.fullLoop L o fuel got need = .ok (got ++ (c.rest L o).1.flatten.take need, c') ∧
      (c'.rest L o).1.flatten = (c.rest L o).1.flatten.drop need ∧ (c'.rest L o).2 = (c.rest L o).2 := by
  intro fuel
  induction fuel with
  | zero => intro got need c h _; omega
  | succ fuel ih =>
    intro got need c hf hn
    rw [Reader.fullLoop]
    by_cases h0 : need = 0
    · subst h0; exact ⟨c, by simp, by simp⟩
    · rw [if_neg h0]
      have hr := (takeRel_iff (read_spec hd L need c)).2
      cases hx : c.rest L o with
      | mk ps e =>
      rw [hx] at hr hf hn
      cases ps with
      | nil => simp at hn; omega
      | cons p ps =>
        simp only [takePiece] at hr
        by_cases hp : p.length ≤ need
        · rw [if_pos hp] at hr
          obtain ⟨c', h1, h2⟩ := hr _ _ rfl
          rw [h1]
          simp only
          obtain ⟨c'', h3, h4, h5⟩ := ih (got ++ p) (need - p.length) c' (by rw [h2]; simp at hf ⊢; omega)
            (by rw [h2]; simp only; simp at hn; rw [List.length_flatten]; omega)
          rw [h2] at h3 h4 h5
          refine ⟨c'', ?_, ?_, h5⟩
          · rw [h3, List.flatten_cons, List.take_append, List.take_of_length_le hp, List.append_assoc]
          · rw [h4, List.flatten_cons, List.drop_append, List.drop_of_length_le hp, List.nil_append]
        · rw [if_neg hp] at hr
          obtain ⟨c', h1, h2⟩ := hr _ _ rfl
          rw [h1]
          simp only
          cases fuel with
          | zero => simp at hf
          | succ fuel =>
          rw [Reader.fullLoop]
          have : need - (List.take need p).length = 0 := by simp; omega
          rw [if_pos this]
          have h0' : need - p.length = 0 := by omega
          refine ⟨c', ?_, ?_, by rw [h2]⟩
          · rw [List.flatten_cons, List.take_append, h0']; simp
          · rw [h2, List.flatten_cons, List.flatten_cons, List.drop_append, h0']; simp

theorem fullLoop_err (hd : o.Delivers view) (L : Libs) : ∀ (fuel : Nat) (got : List Byte) (need : Nat) (c : Reader R),
    (c.rest L o).1.length < fuel → (c.rest L o).1.flatten.length < need →
    c.fullLoop L o fuel got need = .error (if (c.rest L o).2 = .eof ∧ got ++ (c.rest L o).1.flatten ≠ []
      then .unexpectedEOF else (c.rest L o).2) := by
  intro fuel
  induction fuel with
  | zero => intro got need c h _; omega
  | succ fuel ih =>
    intro got need c hf hn
    rw [Reader.fullLoop, if_neg (by omega)]
    have hr := takeRel_iff (read_spec hd L need c)
    cases hx : c.rest L o with
    | mk ps e =>
    rw [hx] at hr hf hn
    cases ps with
    | nil =>
      rw [hr.1 e rfl]
      simp
    | cons p ps =>
      simp only [takePiece] at hr
      simp at hn
      rw [if_pos (by omega)] at hr
      obtain ⟨c', h1, h2⟩ := hr.2 _ _ rfl
      rw [h1]
      simp only
      rw [ih (got ++ p) (need - p.length) c' (by rw [h2]; simp at hf ⊢; omega)
        (by rw [h2]; simp only; rw [List.length_flatten]; omega), h2]
      simp

/-- The reader over a container answers as one that has the bytes of all blocks and then the
error found there. -/
theorem readerSim (hd : o.Delivers view) (L : Libs) :
    ReaderSim (readerOps L o) endsOps (fun c x => (c.rest L o).1.flatten = x.1 ∧ (c.rest L o).2 = x.2) Eq where
  refl _ := rfl
  byteReader := rfl
  readByte h := by cases h
  readFull c x n h := by
    obtain ⟨bs, e⟩ := x
    obtain ⟨h1, h2⟩ := h
    simp only at h1 h2
    simp only [readerOps, endsOps, endsReadFull]
    by_cases hn : n ≤ bs.length
    · rw [if_pos hn]
      obtain ⟨c', h3, h4, h5⟩ := fullLoop_ok hd L ((c.rest L o).1.length + 2) [] n c (by omega) (by rw [h1]; exact hn)
      rw [h3, h1]
      refine .ok ⟨?_, ?_⟩
      · rw [h4, h1]
      · rw [h5, h2]
    · rw [if_neg hn, fullLoop_err hd L ((c.rest L o).1.length + 2) [] n c (by omega) (by rw [h1]; omega)]
      refine .err ?_
      rw [h1, h2]; rfl
  size c x h := by simp only [readerOps, endsOps, h.1]

/-- Up to the error, a reader that has the bytes. -/
theorem endsSim : ReaderSim endsOps (flatOps false) (fun x bs => x.1 = bs) (fun _ _ => True) where
  refl _ := trivial
  byteReader := rfl
  readByte h := by cases h
  readFull x bs n h := by
    subst h
    simp only [endsOps, endsReadFull, flatOps, flatReadFull]
    by_cases hn : n ≤ x.1.length
    · rw [if_pos hn, if_pos hn]; exact .ok rfl
    · rw [if_neg hn, if_neg hn]
      by_cases hb : x.1 = []
      · rw [if_pos hb]; exact ExRel.err (E := fun _ _ => True) trivial
      · rw [if_neg hb]; exact ExRel.err (E := fun _ _ => True) trivial
  size x bs h := by subst h; rfl

/-- With `io.EOF` at the end, just a reader that has the bytes. -/
theorem endsSimEOF : ReaderSim endsOps (flatOps false) (fun x bs => x = (bs, .eof)) Eq where
  refl _ := rfl
  byteReader := rfl
  readByte h := by cases h
  readFull x bs n h := by
    subst h
    simp only [endsOps, endsReadFull, flatOps, flatReadFull]
    by_cases hn : n ≤ bs.length
    · rw [if_pos hn, if_pos hn]; exact .ok rfl
    · rw [if_neg hn, if_neg hn]
      by_cases hb : bs = []
      · simp only [hb, ne_eq, not_true_eq_false, and_false, if_false, if_true]; exact .err rfl
      · simp only [hb, ne_eq, not_false_eq_true, and_self, if_true, if_false]; exact .err rfl
  size x bs h := by subst h; rfl

end
end Verif.Ocf
