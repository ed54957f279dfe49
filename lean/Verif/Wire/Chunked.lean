import Verif.Wire.Lemmas2
/-
Readers that deliver their data in arbitrary pieces, and `io.ReadFull` on top of them.
-/
namespace Verif

/-- `Read(buf)` with `len(buf) = n` of a reader whose data arrives in the given pieces:
at most the rest of the current piece is returned; pieces may be empty (a `Read`
that returns `0, nil`); after the last piece comes `io.EOF`. -/
def chunkRead : List (List Byte) → Nat → (List Byte × Option Err) × List (List Byte)
  | [], _ => (([], some .eof), [])
  | c :: cs, n =>
    if c.length ≤ n then ((c, none), cs) else ((c.take n, none), c.drop n :: cs)

/-- The loop of `io.ReadAtLeast(r, buf, len(buf))` (Go standard library, io/io.go):
`for n < min && err == nil { nn, err = r.Read(buf[n:]); n += nn }`, then the error
mapping. `got` are the bytes read so far, `need` how many are missing. -/
def chunkFullLoop : Nat → List Byte → Nat → List (List Byte) → Except Err (List Byte × List (List Byte))
  | 0, _, _, _ => .error .eof
  | fuel + 1, got, need, cs =>
    if need = 0 then .ok (got, cs) else
      match chunkRead cs need with
      | ((bs, none), cs') => chunkFullLoop fuel (got ++ bs) (need - bs.length) cs'
      | ((_, some _), _) => .error (if got = [] then .eof else .unexpectedEOF)

/-- A reader fed in pieces. `ReadByte`, if offered, delivers the next byte. -/
def chunkOps (byteReader : Bool) : ReaderOps (List (List Byte)) where
  byteReader := byteReader
  readByte cs := match cs.flatten with
    | [] => (.error .eof, [])
    | b :: bs => (.ok b, [bs])
  readFull cs n := chunkFullLoop (cs.length + 2) [] n cs
  size cs := cs.flatten.length

theorem chunkFullLoop_ok : ∀ (fuel : Nat) (got : List Byte) (need : Nat) (cs : List (List Byte)),
    cs.length + 1 < fuel → need ≤ cs.flatten.length →
    ∃ cs', chunkFullLoop fuel got need cs = .ok (got ++ cs.flatten.take need, cs') ∧
      cs'.flatten = cs.flatten.drop need := by
  intro fuel
  induction fuel with
  | zero => intro got need cs h _; omega
  | succ fuel ih =>
    intro got need cs hf hn
    rw [chunkFullLoop]
    by_cases h0 : need = 0
    · subst h0; exact ⟨cs, by simp, by simp⟩
    · rw [if_neg h0]
      cases cs with
      | nil => simp at hn; omega
      | cons c cs =>
        rw [chunkRead]
        by_cases hc : c.length ≤ need
        · rw [if_pos hc]
          simp only
          obtain ⟨cs', h1, h2⟩ := ih (got ++ c) (need - c.length) cs (by simp at hf; omega)
            (by simp at hn; rw [List.length_flatten]; omega)
          refine ⟨cs', ?_, ?_⟩
          · rw [h1, List.flatten_cons, List.take_append, List.take_of_length_le hc, List.append_assoc]
          · rw [h2, List.flatten_cons, List.drop_append, List.drop_of_length_le hc, List.nil_append]
        · rw [if_neg hc]
          simp only
          cases fuel with
          | zero => simp at hf
          | succ fuel =>
          rw [chunkFullLoop]
          have : need - (List.take need c).length = 0 := by simp; omega
          rw [if_pos this]
          have h0' : need - c.length = 0 := by omega
          refine ⟨List.drop need c :: cs, ?_, ?_⟩
          · rw [List.flatten_cons, List.take_append, h0']; simp
          · rw [List.flatten_cons, List.flatten_cons, List.drop_append, h0']; simp

theorem chunkFullLoop_err : ∀ (fuel : Nat) (got : List Byte) (need : Nat) (cs : List (List Byte)),
    cs.length < fuel → cs.flatten.length < need →
    chunkFullLoop fuel got need cs
      = .error (if got ++ cs.flatten = [] then .eof else .unexpectedEOF) := by
  intro fuel
  induction fuel with
  | zero => intro got need cs h _; omega
  | succ fuel ih =>
    intro got need cs hf hn
    rw [chunkFullLoop, if_neg (by omega)]
    cases cs with
    | nil => simp [chunkRead]
    | cons c cs =>
      rw [chunkRead]
      simp at hn
      rw [if_pos (by omega)]
      simp only
      rw [ih (got ++ c) (need - c.length) cs (by simp at hf; omega)
        (by rw [List.length_flatten]; omega)]
      simp

/-- A chunked reader delivers the concatenation of its pieces. -/
theorem chunkOps_delivers (k : Bool) : (chunkOps k).Delivers List.flatten where
  readByte_nil r h := by simp [chunkOps, h]
  readByte_cons r b bs h := by simp [chunkOps, h]
  readFull_ok r n h := by
    obtain ⟨cs', h1, h2⟩ := chunkFullLoop_ok (r.length + 2) [] n r (by omega) h
    exact ⟨cs', by simpa [chunkOps] using h1, h2⟩
  readFull_err r n h := by
    have := chunkFullLoop_err (r.length + 2) [] n r (by omega) h
    simpa [chunkOps] using this
  size_ge r := Nat.le_refl _

/-- A reader holding all its data. -/
theorem flatOps_delivers (k : Bool) : (flatOps k).Delivers (fun r => r) where
  readByte_nil r h := by subst h; exact ⟨rfl, rfl⟩
  readByte_cons r b bs h := by subst h; exact ⟨rfl, rfl⟩
  readFull_ok r n h := ⟨r.drop n, by simp [flatOps, flatReadFull, h], rfl⟩
  readFull_err r n h := by
    simp only [flatOps, flatReadFull, if_neg (show ¬ n ≤ r.length from Nat.not_le.mpr h)]
    split <;> rfl
  size_ge r := Nat.le_refl _

end Verif
