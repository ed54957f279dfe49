import Verif.Gen.NullRoot
import Verif.Gen.ParseEnc
/-
The outcome of decoding, case by case, on any reader that delivers bytes.
-/
namespace Verif
set_option linter.unusedSimpArgs false
set_option linter.unusedVariables false

theorem ReaderOps.Delivers.full {R : Type} {o : ReaderOps R} {view : R → List Byte} (h : o.Delivers view) :
    FullReads o := by
  intro r n bs r' he
  by_cases hn : n ≤ (view r).length
  · obtain ⟨r1, h1, h2⟩ := h.readFull_ok r n hn
    rw [h1] at he; cases he
    simp; omega
  · rw [h.readFull_err r n (by omega)] at he; cases he

/-- What `DeserializeX` returns in place of a value: the nil pointer at the root cannot be
returned; the freshly made union comes back (templates/union.go:67-83). -/
def rootVal : Val → Val
  | .nil => .union 0 none
  | v => v

theorem rootVal_ne {v : Val} (h : v ≠ .nil) : rootVal v = v := by cases v <;> first | rfl | exact absurd rfl h

section
variable {R : Type} {σ : Setting R} {view : R → List Byte} {w r : Schema}

/-- Reading `bs` as a `t` ends with a datum, or in an error. -/
def ReadsAs (k : Bool) (lim : Nat) (env : Env) (t : Ty) (bs : List Byte) : Option (Datum × List Byte) → Prop
  | some x => ∃ n, parse (flatOps k) lim env n t bs = .done x
  | none => ∃ n e, parse (flatOps k) lim env n t bs = .err e

theorem ReadsAs.det {k lim env t bs a b} (ha : ReadsAs k lim env t bs a) (hb : ReadsAs k lim env t bs b) : a = b := by
  cases a with
  | none =>
    cases b with
    | none => rfl
    | some y => obtain ⟨n, e, h⟩ := ha; obtain ⟨m, h'⟩ := hb; exact (parse_det_err h' h).elim
  | some x =>
    cases b with
    | none => obtain ⟨n, h⟩ := ha; obtain ⟨m, e, h'⟩ := hb; exact (parse_det_err h h').elim
    | some y =>
      obtain ⟨n, h⟩ := ha; obtain ⟨m, h'⟩ := hb
      obtain ⟨h1, h2⟩ := parse_det h h'
      simp [Prod.ext_iff, h1, h2]

theorem reads_total (k : Bool) (lim : Nat) {env : Env} (hg : Grounded env) (t : Ty) (bs : List Byte) :
    ∃ a, ReadsAs k lim env t bs a := by
  obtain ⟨n, ⟨d, z, h⟩ | ⟨e, h⟩⟩ := parse_total k lim env hg t bs
  · exact ⟨some (d, z), n, h⟩
  · exact ⟨none, n, e, h⟩

theorem reads_enc {k lim env d t bs} (hl : lim < 2 ^ 63) (h : Enc env d t bs) (hw : d.within lim) (rest : List Byte) :
    ReadsAs k lim env t (bs ++ rest) (some (d, rest)) :=
  ⟨d.size, parse_enc k hl env d t bs h hw _ (Nat.le_refl _) rest⟩

theorem outcome_value (hs : Suited w r) (hd : σ.ro.Delivers view) {prog} (hc : compile σ.ord false w r = .ok prog)
    {rd : R} {d z v} (hp : ReadsAs σ.ro.byteReader σ.lim w.env w.root (view rd) (some (d, z)))
    (hv : resolve Datum.skippable σ.dv w.env r.env d w.root r.root = some v) :
    ∃ rd', Deserializes σ w r rd (.value (rootVal v) rd') ∧ view rd' = z := by
  obtain ⟨n, hn⟩ := hp
  obtain ⟨rd', h1, h2⟩ := parse_view hd hn
  refine ⟨rd', ?_, h2⟩
  by_cases hnil : v = .nil
  · subst hnil; exact deserialize_null hs hd.full hc h1 hv
  · rw [rootVal_ne hnil]; exact deserialize_value hs hd.full hc h1 hv hnil

theorem outcome_unresolved (hs : Suited w r) (hd : σ.ro.Delivers view) {prog} (hc : compile σ.ord false w r = .ok prog)
    {rd : R} {d z} (hp : ReadsAs σ.ro.byteReader σ.lim w.env w.root (view rd) (some (d, z)))
    (hv : resolve Datum.skippable σ.dv w.env r.env d w.root r.root = none) :
    Deserializes σ w r rd .failed := by
  obtain ⟨n, hn⟩ := hp
  obtain ⟨rd', h1, h2⟩ := parse_view hd hn
  exact deserialize_unresolved hs hd.full hc h1 hv

theorem outcome_unreadable (hs : Suited w r) (hd : σ.ro.Delivers view) {prog} (hc : compile σ.ord false w r = .ok prog)
    {rd : R} (hp : ReadsAs σ.ro.byteReader σ.lim w.env w.root (view rd) none) :
    Deserializes σ w r rd .failed := by
  obtain ⟨n, e, hn⟩ := hp
  exact deserialize_unreadable hs hd.full hc (parse_view_err hd hn)

/-- The outcome that reading and resolving say. -/
def Outcome (σ : Setting R) (view : R → List Byte) (w r : Schema) (rd : R) (res : Res R) : Prop :=
  (res = .refused ∧ ∃ e, compile σ.ord false w r = .error e) ∨
  (∃ prog d v rd', compile σ.ord false w r = .ok prog ∧
    ReadsAs σ.ro.byteReader σ.lim w.env w.root (view rd) (some (d, view rd')) ∧
    resolve Datum.skippable σ.dv w.env r.env d w.root r.root = some v ∧ res = .value (rootVal v) rd') ∨
  (∃ prog d z, compile σ.ord false w r = .ok prog ∧
    ReadsAs σ.ro.byteReader σ.lim w.env w.root (view rd) (some (d, z)) ∧
    resolve Datum.skippable σ.dv w.env r.env d w.root r.root = none ∧ res = .failed) ∨
  (∃ prog, compile σ.ord false w r = .ok prog ∧
    ReadsAs σ.ro.byteReader σ.lim w.env w.root (view rd) none ∧ res = .failed)

/-- Every call has an outcome, and it is the one that reading and resolving say. -/
theorem outcome_total (hs : Suited w r) (hg : Grounded w.env) (hd : σ.ro.Delivers view) (rd : R) :
    ∃ res, Deserializes σ w r rd res ∧ Outcome σ view w r rd res := by
  cases hc : compile σ.ord false w r with
  | error e => exact ⟨.refused, .refused hc, .inl ⟨rfl, e, hc⟩⟩
  | ok prog =>
    obtain ⟨a, ha⟩ := reads_total σ.ro.byteReader σ.lim hg w.root (view rd)
    cases a with
    | none => exact ⟨_, outcome_unreadable hs hd hc ha, .inr (.inr (.inr ⟨prog, hc, ha, rfl⟩))⟩
    | some x =>
      obtain ⟨d, z⟩ := x
      cases hv : resolve Datum.skippable σ.dv w.env r.env d w.root r.root with
      | none => exact ⟨_, outcome_unresolved hs hd hc ha hv, .inr (.inr (.inl ⟨prog, d, z, hc, ha, hv, rfl⟩))⟩
      | some v =>
        obtain ⟨rd', h1, h2⟩ := outcome_value hs hd hc ha hv
        subst h2
        exact ⟨_, h1, .inr (.inl ⟨prog, d, v, rd', hc, ha, hv, rfl⟩)⟩

theorem outcome_of (hs : Suited w r) (hg : Grounded w.env) (hd : σ.ro.Delivers view) {rd : R} {res : Res R}
    (h : Deserializes σ w r rd res) : Outcome σ view w r rd res := by
  obtain ⟨res', h1, h2⟩ := outcome_total hs hg hd rd
  rw [h.det h1]; exact h2

theorem value_of (hs : Suited w r) (hg : Grounded w.env) (hd : σ.ro.Delivers view) {rd rd' : R} {v : Val}
    (h : Deserializes σ w r rd (.value v rd')) :
    ∃ prog d v', compile σ.ord false w r = .ok prog ∧
      ReadsAs σ.ro.byteReader σ.lim w.env w.root (view rd) (some (d, view rd')) ∧
      resolve Datum.skippable σ.dv w.env r.env d w.root r.root = some v' ∧ v = rootVal v' := by
  rcases outcome_of hs hg hd h with ⟨h, _⟩ | ⟨prog, d, v', rd'', h1, h2, h3, h4⟩ | ⟨_, _, _, _, _, _, h⟩ | ⟨_, _, _, h⟩
  · cases h
  · cases h4; exact ⟨prog, d, v', h1, h2, h3, rfl⟩
  · cases h
  · cases h
end

/-! ### Plain readers and readers with ReadByte -/

theorem relP_plain_byte {α : Type} {f g : List Byte → Except Err (α × List Byte)}
    (h : ∀ r a r', f r = .ok (a, r') → g r = .ok (a, r')) : RelP false (fun _ => True) Eq f g where
  back _ _ _ _ _ := trivial
  fwd r a r' he _ s hs := by subst hs; exact ⟨r', h r a r' he, rfl⟩
  err hb := by cases hb

theorem next_plain_byte (r : List Byte) : (flatOps false).next r = (flatOps true).next r := by
  cases r with
  | nil => rw [next_flat_nil, next_flat_nil]
  | cons b r => simp [ReaderOps.next, flatOps, flatReadByte, flatReadFull]

theorem readVar_plain_byte (r : List Byte) : readVar (flatOps false) r = readVar (flatOps true) r := by
  have : ∀ n v s r, readVarLoop (flatOps false) n v s r = readVarLoop (flatOps true) n v s r := by
    intro n
    induction n with
    | zero => intros; rfl
    | succ n ih =>
      intro v s r
      simp only [readVarLoop, next_plain_byte]
      split
      · rfl
      · split
        · rfl
        · exact ih _ _ _
  exact this _ _ _ _

theorem readLong_plain_byte (r : List Byte) : readLong (flatOps false) r = readLong (flatOps true) r := by
  simp only [readLong, readVar_plain_byte]

theorem readSized_plain_byte (e : Err) (r : List Byte) :
    readSized e (flatOps false) r = readSized e (flatOps true) r := by
  simp only [readSized, readLong_plain_byte]; rfl

theorem readBool_plain_byte {r : List Byte} {a : Bool} {r' : List Byte}
    (h : readBool (flatOps false) r = .ok (a, r')) : readBool (flatOps true) r = .ok (a, r') := by
  cases r with
  | nil => simp [readBool, flatOps, flatReadFull] at h
  | cons b r => simpa [readBool, flatOps, flatReadFull, flatReadByte] using h

theorem prims_plain_byte : Prims false (fun _ => True) Eq (flatOps false) (flatOps true) where
  all h := by cases h
  bool := relP_plain_byte fun _ _ _ => readBool_plain_byte
  int := relP_plain_byte fun r a r' h => by simpa only [readInt, readVar_plain_byte] using h
  long := relP_plain_byte fun r a r' h => by simpa only [readLong_plain_byte] using h
  float := relP_plain_byte fun r a r' h => h
  double := relP_plain_byte fun r a r' h => h
  bytes := relP_plain_byte fun r a r' h => by simpa only [readBytes, readSized_plain_byte] using h
  string := relP_plain_byte fun r a r' h => by simpa only [readString, readSized_plain_byte] using h
  fixed n := relP_plain_byte fun r a r' h => h

/-- What a plain reader reads is also read with `ReadByte`. -/
theorem reads_plain_byte {lim env t bs x} (h : ReadsAs false lim env t bs (some x)) :
    ReadsAs true lim env t bs (some x) := by
  obtain ⟨n, h⟩ := h
  obtain ⟨s, h1, h2⟩ := (parse_rel prims_plain_byte lim env n n (Nat.le_refl n) t).fwd bs x.1 x.2 h trivial bs rfl
  subst h2; exact ⟨n, h1⟩

theorem relP_byte_plain {α : Type} {f g : List Byte → Except Err (α × List Byte)} (hl : Local f)
    (h : ∀ r a r', f r = .ok (a, r') → g r = .ok (a, r')) : RelP false (fun r => r ≠ []) Eq f g where
  back r a r' he hp := by
    obtain ⟨c, rfl, -⟩ := hl _ _ _ he
    intro hn
    exact hp (List.append_eq_nil_iff.1 hn).2
  fwd r a r' he _ s hs := by subst hs; exact ⟨r', h r a r' he, rfl⟩
  err hb := by cases hb

theorem prims_byte_plain : Prims false (fun r => r ≠ []) Eq (flatOps true) (flatOps false) where
  all h := by cases h
  bool := by
    constructor
    · intro r a r' hf hp
      cases r with
      | nil => cases hf; exact hp
      | cons b r => simp
    · intro r a r' hf hp s hs
      subst hs
      cases r with
      | nil => cases hf; exact absurd rfl hp
      | cons b r => rw [readBool_cons] at hf; cases hf; exact ⟨_, readBool_cons _ _ _, rfl⟩
    · intro h; cases h
  int := relP_byte_plain (local_readInt true) fun r a r' h => by simpa only [readInt, readVar_plain_byte] using h
  long := relP_byte_plain (local_readLong true) fun r a r' h => by simpa only [readLong_plain_byte] using h
  float := relP_byte_plain (local_readFloat true) fun r a r' h => h
  double := relP_byte_plain (local_readDouble true) fun r a r' h => h
  bytes := relP_byte_plain (local_readSized _ true) fun r a r' h => by simpa only [readBytes, readSized_plain_byte] using h
  string := relP_byte_plain (local_readSized _ true) fun r a r' h => by simpa only [readString, readSized_plain_byte] using h
  fixed n := relP_byte_plain (local_readFixed true n) fun r a r' h => h

/-- What is read with `ReadByte` and not at the very end is also read by a plain reader. -/
theorem reads_byte_plain {lim env t bs d z} (h : ReadsAs true lim env t bs (some (d, z))) (hz : z ≠ []) :
    ReadsAs false lim env t bs (some (d, z)) := by
  obtain ⟨n, h⟩ := h
  obtain ⟨s, h1, h2⟩ := (parse_rel prims_byte_plain lim env n n (Nat.le_refl n) t).fwd bs d z h hz bs rfl
  subst h2; exact ⟨n, h1⟩

theorem reads_local {k lim env t bs d z} (h : ReadsAs k lim env t bs (some (d, z))) (hk : k = false ∨ z ≠ []) :
    ∃ c, bs = c ++ z ∧ ∀ x, ReadsAs k lim env t (c ++ x) (some (d, x)) := by
  obtain ⟨n, h⟩ := h
  obtain ⟨c, h1, h2⟩ := parse_local h hk
  exact ⟨c, h1, fun x => ⟨n, h2 x⟩⟩
end Verif
