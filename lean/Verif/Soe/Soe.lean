import Verif.Gen.AnyWriter
import Verif.Wire.Chunked
/-
Single-object encoding, v10/soe/soe.go.
-/
namespace Verif.Soe
open Verif

/-- `HeaderV1`, v10/soe/soe.go:10. (It is a variable; nothing in the package assigns it.) -/
def headerV1 : List Byte := [0xC3#8, 0x01#8]

/-- `AvroRecord`, v10/soe/avro_record.go:10-13: what `AvroCRC64Fingerprint()` returns and what
`Serialize` does. -/
structure Rec where
  fingerprint : List Byte
  ser : SerOut

/-- `WriteRecord`, v10/soe/soe.go:13-24. `binary.Write` of a `[]byte` is one `Write` of it. -/
def writeRecord (r : Rec) : SerOut :=
  SerOut.andThen ([headerV1], true) (SerOut.andThen ([r.fingerprint], true) r.ser)

/-- How `Read(buf)` answers: bytes and error, and the reader afterwards. `io.Reader` allows any
number of bytes up to the length of `buf`, and an error together with the last bytes. -/
structure Src (R : Type) where
  read : R → Nat → (List Byte × Option Err) × R

/-- `make([]byte, n)` filled by a `Read`: what was not read stays zero. -/
def filled (n : Nat) (bs : List Byte) : List Byte := bs ++ List.replicate (n - bs.length) 0

/-- The errors `ReadHeader` makes itself, soe.go:34 and 44, or passes on, soe.go:31. -/
inductive HErr where
  | io (e : Err)
  | headerInvalid
  | notRead
  deriving DecidableEq

/-- `ReadHeader`, v10/soe/soe.go:27-48. -/
def readHeader {R : Type} (s : Src R) (r : R) : Except HErr (List Byte × R) :=
  match s.read r 2 with
  | ((_, some e), _) => .error (.io e)
  | ((b, none), r') =>
    if (filled 2 b)[0]? ≠ headerV1[0]? ∨ (filled 2 b)[1]? ≠ headerV1[1]? then .error .headerInvalid
    else if (s.read r' 8).1.1.length ≠ 8 ∨ (s.read r' 8).1.2.isSome then .error .notRead
    else .ok ((s.read r' 8).1.1, (s.read r' 8).2)

/-- A reader whose data arrives in pieces, see `chunkRead`. -/
def pieces : Src (List (List Byte)) := ⟨chunkRead⟩

/-- A reader that reports the end of the data together with the last bytes, as `io.Reader`
allows (for instance `testing/iotest.DataErrReader`). -/
def eager : Src (List Byte) :=
  ⟨fun bs n => ((bs.take n, if bs.length ≤ n then some .eof else none), bs.drop n)⟩

/-- A reader that fulfils every request as far as it has data (`bytes.Reader`,
`bytes.Buffer`, files). -/
def whole : Src (List Byte) :=
  ⟨fun bs n => if bs = [] then (([], some .eof), []) else ((bs.take n, none), bs.drop n)⟩

/-- What `io.Reader` promises: the bytes are the next ones of the data, at most as many as
asked for. -/
structure Src.Delivers {R : Type} (s : Src R) (view : R → List Byte) : Prop where
  next : ∀ r n, ∃ bs, (s.read r n).1.1 = bs ∧ bs.length ≤ n ∧ view r = bs ++ view (s.read r n).2

theorem pieces_delivers : pieces.Delivers List.flatten where
  next cs n := by
    cases cs with
    | nil => exact ⟨[], rfl, by simp, rfl⟩
    | cons c cs =>
      simp only [pieces, chunkRead]
      split
      · exact ⟨c, rfl, by assumption, rfl⟩
      · refine ⟨c.take n, rfl, by simp; omega, ?_⟩
        simp [← List.append_assoc, List.take_append_drop]

theorem eager_delivers : eager.Delivers (fun bs => bs) where
  next bs n := ⟨bs.take n, rfl, by simp; omega, by simp [eager]⟩

theorem whole_delivers : whole.Delivers (fun bs => bs) where
  next bs n := by
    by_cases h : bs = []
    · subst h; exact ⟨[], by simp [whole], by simp, by simp [whole]⟩
    · exact ⟨bs.take n, by simp [whole, h], by simp; omega, by simp [whole, h]⟩

theorem writeRecord_bytes (r : Rec) :
    (writeRecord r).1.bytes = headerV1 ++ r.fingerprint ++ r.ser.1.bytes ∧ (writeRecord r).2 = r.ser.2 := by
  simp [writeRecord, SerOut.andThen, Trace.bytes]

theorem filled_header {b : List Byte} (hb : b.length ≤ 2)
    (h : ¬ ((filled 2 b)[0]? ≠ headerV1[0]? ∨ (filled 2 b)[1]? ≠ headerV1[1]?)) : b = headerV1 := by
  simp only [not_or, Classical.not_not] at h
  obtain ⟨h0, h1⟩ := h
  match b, hb with
  | [], _ => simp [filled, headerV1] at h0
  | [x], _ => simp [filled, headerV1] at h1
  | [x, y], _ =>
    simp [filled, headerV1] at h0 h1
    rw [h0, h1]; rfl

theorem filled_header_ok : ¬ ((filled 2 headerV1)[0]? ≠ headerV1[0]? ∨ (filled 2 headerV1)[1]? ≠ headerV1[1]?) := by
  decide

/-- What `ReadHeader` accepts. -/
theorem readHeader_ok {R : Type} {s : Src R} {view : R → List Byte} (hs : s.Delivers view) {r r' : R}
    {fp : List Byte} (h : readHeader s r = .ok (fp, r')) :
    fp.length = 8 ∧ view r = headerV1 ++ fp ++ view r' := by
  unfold readHeader at h
  obtain ⟨b, hb1, hb2, hb3⟩ := hs.next r 2
  rcases h1 : s.read r 2 with ⟨⟨b', e⟩, r1⟩
  rw [h1] at h hb1 hb3
  simp only at hb1 hb3
  subst hb1
  cases e with
  | some e => simp at h
  | none =>
    simp only at h
    split at h
    · cases h
    · rename_i hh
      have := filled_header hb2 hh
      obtain ⟨c, hc1, hc2, hc3⟩ := hs.next r1 8
      rcases h2 : s.read r1 8 with ⟨⟨c', e⟩, r2⟩
      rw [h2] at h hc1 hc3
      simp only at hc1 hc3 h
      subst hc1
      split at h
      · cases h
      · rename_i hne
        simp only [not_or, Classical.not_not] at hne
        cases h
        refine ⟨hne.1, ?_⟩
        rw [hb3, hc3, this, List.append_assoc]

/-- A reader that gives all bytes asked for, if it has them, and no error with them. -/
def Src.Full {R : Type} (s : Src R) (view : R → List Byte) : Prop :=
  ∀ r n, 0 < n → n ≤ (view r).length → (s.read r n).1 = ((view r).take n, none)

theorem whole_full : whole.Full (fun bs => bs) := by
  intro bs n h0 hn
  have : bs ≠ [] := by rintro rfl; simp at hn; omega
  simp [whole, this]

theorem readHeader_full {R : Type} {s : Src R} {view : R → List Byte} (hs : s.Delivers view) (hf : s.Full view)
    {r : R} {fp rest : List Byte} (h8 : fp.length = 8) (hin : view r = headerV1 ++ fp ++ rest) :
    ∃ r', readHeader s r = .ok (fp, r') ∧ view r' = rest := by
  have h1 := hf r 2 (by omega) (by rw [hin]; simp [headerV1])
  have ht : (view r).take 2 = headerV1 := by rw [hin]; rfl
  rw [ht] at h1
  obtain ⟨b, hb1, _, hb3⟩ := hs.next r 2
  have hb3 : view (s.read r 2).2 = fp ++ rest := by
    rw [h1] at hb1
    subst hb1
    rw [hin, List.append_assoc] at hb3
    exact (List.append_cancel_left hb3).symm
  have h2 := hf (s.read r 2).2 8 (by omega) (by rw [hb3]; simp [h8])
  have ht2 : (view (s.read r 2).2).take 8 = fp := by rw [hb3, ← h8]; simp
  rw [ht2] at h2
  obtain ⟨c, hc1, _, hc3⟩ := hs.next (s.read r 2).2 8
  rw [h2] at hc1
  subst hc1
  rw [hb3] at hc3
  refine ⟨(s.read (s.read r 2).2 8).2, ?_, (List.append_cancel_left hc3).symm⟩
  unfold readHeader
  rcases e1 : s.read r 2 with ⟨⟨b', e⟩, r1⟩
  rw [e1] at h1 h2
  cases h1
  simp only at h2 ⊢
  rw [if_neg filled_header_ok]
  rcases e2 : s.read r1 8 with ⟨⟨c', e⟩, r2⟩
  rw [e2] at h2
  cases h2
  simp [h8]

end Verif.Soe
