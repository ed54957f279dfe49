import Verif.Props.Decode
import Verif.Props.Check
import Verif.Gen.PathProof
import Verif.Go.FloatProof
/-
Properties C16, C22, C29-C33, C35, C36: reading data with a schema other than the one it
was written with.

`Sees we re d w r p d' w' r'` (Spec/Path): when `d`, written as `w`, is read as `r`, its part
`d'`, written as `w'`, is read as `r'`; and the result belongs at the position `p` of the Go
value. `u.at p` is what the Go value `u` has at the position `p`.
-/
namespace Verif.Props
open Verif
set_option linter.unusedVariables false
set_option linter.unusedSimpArgs false

section
variable {R : Type} {σ : Setting R} {view : R → List Byte} {w r : Schema} {d : Datum} {rd rd' : R} {rest : List Byte}

/-- The reader `rd` delivers an encoding of the datum `d` of the schema `w`, then `rest`; the
schemas `w` and `r` meet the conditions, and the sizes are acceptable. -/
structure Reading (σ : Setting R) (view : R → List Byte) (w r : Schema) (d : Datum) (rd : R) (rest : List Byte) :
    Prop where
  suited : Suited w r
  delivers : σ.ro.Delivers view
  lim : σ.lim < 2 ^ 63
  within : d.within σ.lim
  enc : ∃ e, Enc w.env d w.root e ∧ view rd = e ++ rest

theorem Reading.reads (h : Reading σ view w r d rd rest) :
    ReadsAs σ.ro.byteReader σ.lim w.env w.root (view rd) (some (d, rest)) := by
  obtain ⟨e, he, hv⟩ := h.enc
  rw [hv]
  exact reads_enc h.lim he h.within rest

/-- What a value that is returned comes from. -/
theorem Reading.value (h : Reading σ view w r d rd rest) {u : Val} (hu : Deserializes σ w r rd (.value u rd')) :
    view rd' = rest ∧ ∃ v, resolve Datum.skippable σ.dv w.env r.env d w.root r.root = some v ∧ u = rootVal v := by
  cases hc : compile σ.ord false w r with
  | error e => cases hu.det (.refused hc)
  | ok prog =>
    cases hv : resolve Datum.skippable σ.dv w.env r.env d w.root r.root with
    | none => cases hu.det (outcome_unresolved h.suited h.delivers hc h.reads hv)
    | some v =>
      obtain ⟨rd'', h1, h2⟩ := outcome_value h.suited h.delivers hc h.reads hv
      cases hu.det h1
      exact ⟨h2, v, rfl, rfl⟩

theorem Reading.fails (h : Reading σ view w r d rd rest)
    (hn : resolve Datum.skippable σ.dv w.env r.env d w.root r.root = none) : Fails σ w r rd := by
  cases hc : compile σ.ord false w r with
  | error e => exact .inl (.refused hc)
  | ok prog => exact .inr (outcome_unresolved h.suited h.delivers hc h.reads hn)

/-- What the code may leave out, and Avro's rule. -/
theorem avro_of {d : Datum} {w' r' : Ty} {v : Val} (h : resolve Datum.skippable σ.dv w.env r.env d w' r' = some v) :
    resolve (fun _ => true) σ.dv w.env r.env d w' r' = some v :=
  resolve_mono (fun _ _ => rfl) σ.dv _ _ _ _ _ _ h

/-- Every part of the datum is found in the value that is returned, at its position and as
resolution says. (Null at the root is an exception: `root_null_not_restored`.) -/
theorem part (h : Reading σ view w r d rd rest) {u : Val} (hu : Deserializes σ w r rd (.value u rd'))
    {p d' w' r'} (hp : Sees w.env r.env d w.root r.root p d' w' r') :
    ∃ v, resolve (fun _ => true) σ.dv w.env r.env d' w' r' = some v ∧ (u.at p = some v ∨ (p = [] ∧ v = .nil)) := by
  obtain ⟨-, v, hv, rfl⟩ := h.value hu
  obtain ⟨v', h1, h2⟩ := resolve_at hp v hv
  refine ⟨v', avro_of h2, ?_⟩
  by_cases hn : v = .nil
  · subst hn
    cases p with
    | nil => cases h1; exact .inr ⟨rfl, rfl⟩
    | cons s p => simp [Val.at, Val.step] at h1
  · rw [rootVal_ne hn]; exact .inl h1

/-- A part that cannot be read makes the whole fail. -/
theorem part_fails (h : Reading σ view w r d rd rest) {p d' w' r'}
    (hp : Sees w.env r.env d w.root r.root p d' w' r')
    (hn : resolve (fun _ => true) σ.dv w.env r.env d' w' r' = none) : Fails σ w r rd := by
  cases hv : resolve Datum.skippable σ.dv w.env r.env d w.root r.root with
  | none => exact h.fails hv
  | some v =>
    obtain ⟨v', h1, h2⟩ := resolve_at hp v hv
    rw [avro_of h2] at hn; cases hn

/-! ### C22 -/

/-- C22: if what the reader has no field for contains no arrays or maps, then the outcome is
exactly what Avro's rules give. (If it does: `dropped_array_fails`.) -/
theorem resolution_exact (h : Reading σ view w r d rd rest) (hf : DropsFlat w.env r.env) {prog}
    (hc : compile σ.ord false w r = .ok prog) :
    match resolve (fun _ => true) σ.dv w.env r.env d w.root r.root with
    | some v => ∃ rd', Deserializes σ w r rd (.value (rootVal v) rd') ∧ view rd' = rest
    | none => Deserializes σ w r rd .failed := by
  obtain ⟨e, he, hv⟩ := h.enc
  rw [← resolve_drops hf d w.root r.root e he]
  exact resolution_partial h.suited h.delivers h.lim hc h.within he hv

/-! ### C29 -/

/-- The pairs of types with a numeric promotion, and what becomes of a number. -/
inductive Promotes : Datum → Ty → Ty → Val → Prop
  | intLong {n : BitVec 32} {m : BitVec 64} : m.toInt = n.toInt → Promotes (.int n) .int .long (.long m)
  | intFloat {n b} : single.Nearest n.toInt b → Promotes (.int n) .int .float (.float b)
  | intDouble {n b} : double.Exact n.toInt b → Promotes (.int n) .int .double (.double b)
  | longFloat {n b} : single.Nearest n.toInt b → Promotes (.long n) .long .float (.float b)
  | longDouble {n b} : double.Nearest n.toInt b → Promotes (.long n) .long .double (.double b)
  | floatDouble {b b'} : SameNumber b b' → Promotes (.float b) .float .double (.double b')

def promotions : List (Ty × Ty) :=
  [(.int, .long), (.int, .float), (.int, .double), (.long, .float), (.long, .double), (.float, .double)]

theorem int_small (n : BitVec 32) : n.toInt.natAbs < 2 ^ 53 := by
  have h1 := BitVec.le_toInt n
  have h2 := BitVec.toInt_lt (x := n)
  omega
theorem long_small (n : BitVec 64) : n.toInt.natAbs < 2 ^ 64 := by
  have h1 := BitVec.le_toInt n
  have h2 := BitVec.toInt_lt (x := n)
  omega

theorem promotes {d' : Datum} {w' r' : Ty} {v : Val} {dv we re drop} (ht : (w', r') ∈ promotions)
    (h : resolve drop dv we re d' w' r' = some v) : Promotes d' w' r' v := by
  simp only [promotions, List.mem_cons, Prod.mk.injEq, List.not_mem_nil, or_false] at ht
  rcases ht with ⟨rfl, rfl⟩ | ⟨rfl, rfl⟩ | ⟨rfl, rfl⟩ | ⟨rfl, rfl⟩ | ⟨rfl, rfl⟩ | ⟨rfl, rfl⟩ <;>
    cases d' <;> simp [resolve, intoReader, intAs, longAs, floatAs, Ty.isNull] at h <;> subst h
  · exact .intLong (BitVec.toInt_signExtend_of_le (by decide))
  · exact .intFloat (near32 (Nat.lt_trans (int_small _) (by decide)))
  · exact .intDouble (exact64 (int_small _))
  · exact .longFloat (near32 (long_small _))
  · exact .longDouble (near64 (long_small _))
  · exact .floatDouble (sameNumber _)

/-- C29: numbers keep their value when they are promoted, exactly or as the nearest float. -/
theorem promotion (h : Reading σ view w r d rd rest) {u : Val} (hu : Deserializes σ w r rd (.value u rd'))
    {p d' w' r'} (hp : Sees w.env r.env d w.root r.root p d' w' r') (ht : (w', r') ∈ promotions) :
    ∃ v, u.at p = some v ∧ Promotes d' w' r' v := by
  obtain ⟨v, h1, h2⟩ := part h hu hp
  have := promotes ht h1
  rcases h2 with h2 | ⟨-, rfl⟩
  · exact ⟨v, h2, this⟩
  · cases this

/-! ### C36 -/

/-- C36 -/
theorem string_as_bytes (h : Reading σ view w r d rd rest) {u : Val} (hu : Deserializes σ w r rd (.value u rd'))
    {p bs} (hp : Sees w.env r.env d w.root r.root p (.string bs) .string .bytes) : u.at p = some (.bytes bs) := by
  obtain ⟨v, h1, h2⟩ := part h hu hp
  cases h1
  rcases h2 with h2 | ⟨-, h2⟩
  · exact h2
  · cases h2

/-- C36 -/
theorem bytes_as_string (h : Reading σ view w r d rd rest) {u : Val} (hu : Deserializes σ w r rd (.value u rd'))
    {p bs} (hp : Sees w.env r.env d w.root r.root p (.bytes bs) .bytes .string) : u.at p = some (.string bs) := by
  obtain ⟨v, h1, h2⟩ := part h hu hp
  cases h1
  rcases h2 with h2 | ⟨-, h2⟩
  · exact h2
  · cases h2

/-! ### C16 -/

/-- C16: of several entries with the same key the last one counts. -/
theorem last_key_wins (h : Reading σ view w r d rd rest) {u : Val} (hu : Deserializes σ w r rd (.value u rd'))
    {p es wi ri} (hp : Sees w.env r.env d w.root r.root p (.map es) (.map wi) (.map ri)) :
    ∃ m, u.at p = some (.map m) ∧ ∀ k,
      (lastEntry es k = none → mapGet m k = none) ∧
      (∀ x, lastEntry es k = some x → ∃ y, mapGet m k = some y ∧
        resolve (fun _ => true) σ.dv w.env r.env x wi ri = some y) := by
  obtain ⟨v, h1, h2⟩ := part h hu hp
  obtain ⟨m, rfl, hm⟩ := resolve_map h1
  rcases h2 with h2 | ⟨-, h2⟩
  · refine ⟨m, h2, fun k => ⟨fun hk => ?_, fun x hk => ?_⟩⟩
    · have := hm k; rw [hk] at this; exact this
    · have := hm k
      rw [hk] at this
      obtain ⟨y, h3, h4⟩ := this
      exact ⟨y, h4, h3⟩
  · cases h2

/-! ### C30, C31 -/

/-- C30, C31: a record's field whose name, or one of whose aliases, is the name of a field of
the writer holds that field's data, whatever the positions; a field for which the writer has
none holds its default. -/
theorem fields_by_name (h : Reading σ view w r d rd rest) {u : Val} (hu : Deserializes σ w r rd (.value u rd'))
    {p ds q q'} (hp : Sees w.env r.env d w.root r.root p (.record ds) (.ref q) (.ref q')) :
    ∃ wd rrd wfs rfs vs, w.env.find q = some wd ∧ wd.kind = .record wfs ∧ r.env.find q' = some rrd ∧
      rrd.kind = .record rfs ∧ u.at p = some (.record vs) ∧ vs.length = rfs.length ∧
      (∀ i j wf rf, Matched wfs rfs i j wf rf → ∃ x y, ds[i]? = some x ∧ vs[j]? = some y ∧
        resolve (fun _ => true) σ.dv w.env r.env x wf.ty rf.ty = some y) ∧
      (∀ (j : Nat) (rf : Field), rfs[j]? = some rf → (∀ wf ∈ wfs, ¬ rf.answers wf.name) →
        rf.dflt.isSome = true ∧ vs[j]? = some (σ.dv rf)) := by
  obtain ⟨v, h1, h2⟩ := part h hu hp
  obtain ⟨wd, rrd, wfs, rfs, vs, h3, h4, h5, h6, rfl, h7, h8, h9, h10⟩ := resolve_record h1
  refine ⟨wd, rrd, wfs, rfs, vs, h3, h5, h4, h6, ?_, h8, fun i j wf rf hm => ?_, fun j rf hj hn => ?_⟩
  · rcases h2 with h2 | ⟨-, h2⟩
    · exact h2
    · cases h2
  · exact h9 i j wf rf hm.writer (fieldByName_of hm.reader hm.answers hm.onlyR)
      (fun i' w' hi' hf => hm.onlyW i' w' hi' (fieldByName_some hf).2)
  · refine h10 j rf hj fun wf hwf rf' hf => ?_
    obtain ⟨a, b⟩ := fieldByName_some hf
    rw [hj] at a; cases a
    exact hn wf hwf b

/-- C30: two readers of the same data find the same value in the field that both have, when the
type of the field and the definitions it mentions are the same; the order of the fields and
the other fields do not matter. -/
theorem other_fields_do_not_matter {r1 r2 : Schema} {rd1 rd2 rd1' rd2' : R} {rest1 rest2 : List Byte}
    (h1 : Reading σ view w r1 d rd1 rest1) (h2 : Reading σ view w r2 d rd2 rest2) {u1 u2 : Val}
    (hu1 : Deserializes σ w r1 rd1 (.value u1 rd1')) (hu2 : Deserializes σ w r2 rd2 (.value u2 rd2'))
    {p1 p2 s1 s2 x t t'} (hp1 : Sees w.env r1.env d w.root r1.root (s1 :: p1) x t t')
    (hp2 : Sees w.env r2.env d w.root r2.root (s2 :: p2) x t t')
    {S : QName → Prop} (hS : SameOn S r1.env r2.env) (hm : t'.Mentions S) :
    ∃ v, u1.at (s1 :: p1) = some v ∧ u2.at (s2 :: p2) = some v := by
  obtain ⟨v1, a1, b1⟩ := part h1 hu1 hp1
  obtain ⟨v2, a2, b2⟩ := part h2 hu2 hp2
  rw [resolve_same hS _ _ _ _ _ _ hm, a1] at a2
  cases a2
  exact ⟨v1, by simpa using b1, by simpa using b2⟩

theorem encFields_length {env : Env} : ∀ {ds : List Datum} {fs : List Field} {e : List Byte}, EncFields env ds fs e →
    ds.length = fs.length
  | [], fs, e, h => by rw [h.1]; rfl
  | d :: ds, fs, e, h => by
    obtain ⟨f, fs', e1, e2, rfl, -, h2, -⟩ := h
    simp [encFields_length h2]

/-- C31: renaming a field and keeping the old name as an alias changes nothing. -/
theorem renamed_field {r1 r2 : Schema} {rd1 rd2 rd1' rd2' : R} {rest1 rest2 : List Byte}
    (h1 : Reading σ view w r1 d rd1 rest1) (h2 : Reading σ view w r2 d rd2 rest2) {u1 u2 : Val}
    (hu1 : Deserializes σ w r1 rd1 (.value u1 rd1')) (hu2 : Deserializes σ w r2 rd2 (.value u2 rd2'))
    {ds q q1 q2 wd d1 d2 wfs fs1 fs2 i j1 j2 wf f1 f2} (hd : d = .record ds)
    (hw : w.root = .ref q) (hr1 : r1.root = .ref q1) (hr2 : r2.root = .ref q2)
    (hwd : w.env.find q = some wd) (hwk : wd.kind = .record wfs)
    (hd1 : r1.env.find q1 = some d1) (hk1 : d1.kind = .record fs1)
    (hd2 : r2.env.find q2 = some d2) (hk2 : d2.kind = .record fs2)
    (hm1 : Matched wfs fs1 i j1 wf f1) (hn1 : f1.name = wf.name)
    (hm2 : Matched wfs fs2 i j2 wf f2) (hn2 : f2.name ≠ wf.name ∧ wf.name ∈ f2.aliases) (hty : f2.ty = f1.ty)
    {S : QName → Prop} (hS : SameOn S r1.env r2.env) (hm : f1.ty.Mentions S) :
    ∃ v, u1.at [.field j1] = some v ∧ u2.at [.field j2] = some v := by
  subst hd
  have hlen : ds.length = wfs.length := by
    obtain ⟨e, he, -⟩ := h1.enc
    rw [hw] at he
    obtain ⟨q0, d0, fs0, a, b, c, he⟩ := he
    cases a
    rw [hwd] at b; cases b
    rw [hwk] at c; cases c
    exact encFields_length he
  have hi := (List.getElem?_eq_some_iff.1 hm1.writer).1
  have hx : ds[i]? = some ds[i] := List.getElem?_eq_getElem (by omega)
  refine other_fields_do_not_matter h1 h2 hu1 hu2 (x := ds[i]) (t := wf.ty) (t' := f1.ty) ?_ ?_ hS hm
  · rw [hw, hr1]; exact .field hwd hwk hd1 hk1 hm1 hx .here
  · rw [hw, hr2, ← hty]; exact .field hwd hwk hd2 hk2 hm2 hx .here

/-! ### C32 -/

theorem symbolIndexFrom_get {ss : List Str} {s : Str} : ∀ {k n : Nat}, symbolIndexFrom k ss s = some n →
    ∃ i, n = k + i ∧ ss[i]? = some s := by
  induction ss with
  | nil => intro k n h; cases h
  | cons x ss ih =>
    intro k n h
    simp only [symbolIndexFrom] at h
    split at h
    · cases h; exact ⟨0, rfl, by simpa using ‹_›⟩
    · obtain ⟨i, h1, h2⟩ := ih h
      exact ⟨i + 1, by omega, by simpa using h2⟩

theorem symbolIndexFrom_none {ss : List Str} {s : Str} : ∀ {k : Nat}, symbolIndexFrom k ss s = none ↔ s ∉ ss := by
  induction ss with
  | nil => intro k; simp [symbolIndexFrom]
  | cons x ss ih =>
    intro k
    simp only [symbolIndexFrom]
    split
    · simp_all
    · rename_i hx; rw [ih]; simp [Ne.symm hx]

/-- The `n`th symbol is `s`. -/
def IsSymbol (ss : List Str) (n : BitVec 32) (s : Str) : Prop := ss[n.toNat]? = some s

/-- The symbol that is meant by the writer's symbol `s`: the reader's of that name, else the
reader's default (`none` if that is the empty string, i.e. there is none, or no symbol). -/
inductive Means (rs : List Str) (dflt : Str) (s : Str) : Option Str → Prop
  | same : s ∈ rs → Means rs dflt s (some s)
  | default : s ∉ rs → dflt ≠ [] → dflt ∈ rs → Means rs dflt s (some dflt)
  | nothing : s ∉ rs → (dflt = [] ∨ dflt ∉ rs) → Means rs dflt s none

theorem symbolAs_means {rs : List Str} {df s : Str} (hl : rs.length < 2 ^ 31) {o : Option Str} (h : Means rs df s o) :
    match o with
    | some s' => ∃ n, symbolAs rs df s = some (.enum n) ∧ IsSymbol rs n s'
    | none => symbolAs rs df s = none := by
  have key : ∀ s n, symbolIndex rs s = some n → IsSymbol rs (BitVec.ofInt 32 n) s := by
    intro s n hn
    obtain ⟨i, h1, h2⟩ := symbolIndexFrom_get hn
    rw [Nat.zero_add] at h1; subst h1
    have := (List.getElem?_eq_some_iff.1 h2).1
    unfold IsSymbol
    rw [show (BitVec.ofInt 32 (n : Int)).toNat = n by simp; omega]
    exact h2
  unfold symbolAs
  cases h with
  | same hs =>
    cases hx : symbolIndex rs s with
    | none => exact absurd hs (symbolIndexFrom_none.1 hx)
    | some n => exact ⟨_, rfl, key s n hx⟩
  | default hs hd hm =>
    rw [show symbolIndex rs s = none from symbolIndexFrom_none.2 hs]
    simp only
    rw [if_pos hd]
    cases hx : symbolIndex rs df with
    | none => exact absurd hm (symbolIndexFrom_none.1 hx)
    | some n => exact ⟨_, rfl, key df n hx⟩
  | nothing hs hd =>
    rw [show symbolIndex rs s = none from symbolIndexFrom_none.2 hs]
    simp only
    rcases hd with rfl | hd
    · simp
    · split
      · rw [show symbolIndex rs df = none from symbolIndexFrom_none.2 hd]; rfl
      · rfl

theorem defAs_kinds {we re : Env} {q q' : QName} {wd rd : Def} {k} (hw : we.find q = some wd) (hr : re.find q' = some rd)
    {v : Val} (h : defAs we re q k (.ref q') = some v) : k wd.kind rd.kind = some v := by
  simp only [defAs, hw, hr] at h
  split at h
  · exact h
  · cases h

/-- C32: an enum is read as the symbol of the same name, or else the default; if there is
neither, decoding fails. -/
theorem symbols_by_name (h : Reading σ view w r d rd rest) {p i q q' wd rrd ws wdf rs df s o}
    (hp : Sees w.env r.env d w.root r.root p (.enum i) (.ref q) (.ref q'))
    (hw : w.env.find q = some wd) (hwk : wd.kind = .enum ws wdf) (hr : r.env.find q' = some rrd)
    (hrk : rrd.kind = .enum rs df) (hl : rs.length < 2 ^ 31) (hi : 0 ≤ i) (hs : ws[i.toNat]? = some s)
    (hm : Means rs df s o) :
    match o with
    | some s' => ∀ u rd', Deserializes σ w r rd (.value u rd') → ∃ n, u.at p = some (.enum n) ∧ IsSymbol rs n s'
    | none => Fails σ w r rd := by
  have hsym := symbolAs_means hl hm
  have hk : enumAs i wd.kind rrd.kind = symbolAs rs df s := by
    rw [hwk, hrk]
    simp only [enumAs, if_pos hi, hs]
  cases o with
  | none =>
    refine part_fails h hp ?_
    cases hx : resolve (fun _ => true) σ.dv w.env r.env (.enum i) (.ref q) (.ref q') with
    | none => rfl
    | some v =>
      simp only [resolve, intoReader] at hx
      have := defAs_kinds hw hr hx
      rw [hk] at this
      simp only at hsym
      rw [hsym] at this; cases this
  | some s' =>
    intro u rd' hu
    obtain ⟨n, h1, h2⟩ := hsym
    obtain ⟨v, h3, h4⟩ := part h hu hp
    simp only [resolve, intoReader] at h3
    have := defAs_kinds hw hr h3
    rw [hk, h1] at this
    cases this
    rcases h4 with h4 | ⟨-, h4⟩
    · exact ⟨n, h4, h2⟩
    · cases h4

/-! ### C33 -/

/-- C33: a member of a union is read into the reader's member of the same type name, else the
first one that can read it, and as if its type were not in a union. -/
theorem union_branch (h : Reading σ view w r d rd rest) {u : Val} (hu : Deserializes σ w r rd (.value u rd'))
    {p i x ts t rs j t'} (hp : Sees w.env r.env d w.root r.root p (.union i x) (.union ts) (.union rs))
    (ht : ts[i]? = some t) (hn : t ≠ .null) (hj : Picks w.env r.env t rs j t') :
    ∃ y, u.at p = some (.union (BitVec.ofInt 64 j) (some y)) ∧
      resolve (fun _ => true) σ.dv w.env r.env x t t' = some y := by
  obtain ⟨v, h1, h2⟩ := part h hu hp
  have hnn : t.isNull = false := by cases t <;> simp [Ty.isNull] at hn ⊢
  simp only [resolve, ht, hnn, pickBranch_of hj, Option.map_eq_some_iff, Bool.false_eq_true, if_false] at h1
  obtain ⟨y, h3, rfl⟩ := h1
  rcases h2 with h2 | ⟨-, h2⟩
  · exact ⟨y, h2, h3⟩
  · cases h2

/-- C33: without such a member decoding fails. -/
theorem union_no_branch (h : Reading σ view w r d rd rest)
    {p i x ts t rs} (hp : Sees w.env r.env d w.root r.root p (.union i x) (.union ts) (.union rs))
    (ht : ts[i]? = some t) (hn : t ≠ .null)
    (hno : ∀ t' ∈ rs, ¬ SameTypeName w.env r.env t t' ∧ ¬ CanRead w.env r.env t t') : Fails σ w r rd := by
  refine part_fails h hp ?_
  have hnn : t.isNull = false := by cases t <;> simp [Ty.isNull] at hn ⊢
  simp only [resolve, ht, hnn, pickBranch_none.2 hno, Bool.false_eq_true, if_false]

/-- C33: a union read as another type: the member that was written must be readable as that. -/
theorem union_as_plain (h : Reading σ view w r d rd rest)
    {p i x ts t t'} (hp : Sees w.env r.env d w.root r.root p (.union i x) (.union ts) t')
    (ht : ts[i]? = some t) (hn : t ≠ .null) (hu : ∀ rs, t' ≠ .union rs) (hno : ¬ CanRead w.env r.env t t') :
    Fails σ w r rd := by
  refine part_fails h hp ?_
  have hnn : t.isNull = false := by cases t <;> simp [Ty.isNull] at hn ⊢
  have hr : ¬ t.readableBy w.env r.env t' = true := fun hh => hno (readable_iff.1 hh)
  cases t' with
  | union rs => exact absurd rfl (hu rs)
  | _ => simp only [resolve, ht, hnn, hr, Bool.false_eq_true, if_false]

/-- C33: a type that is no union read as a union: the first member that can read it. -/
theorem plain_into_union (h : Reading σ view w r d rd rest) {u : Val} (hu : Deserializes σ w r rd (.value u rd'))
    {p x t rs} (hp : Sees w.env r.env d w.root r.root p x t (.union rs)) (hn : t ≠ .null) (hnu : ∀ ts, t ≠ .union ts)
    (hrs : ∀ t' ∈ rs, ∀ ts, t' ≠ .union ts) :
    ∃ j t' y, First (CanRead w.env r.env t) rs j t' ∧ u.at p = some (.union (BitVec.ofInt 64 j) (some y)) ∧
      resolve (fun _ => true) σ.dv w.env r.env x t t' = some y := by
  obtain ⟨v, h1, h2⟩ := part h hu hp
  obtain ⟨j, t', h3, h4⟩ := resolve_wrap hn hnu h1
  obtain ⟨y, rfl, h5⟩ := h4 (hrs t' (List.mem_of_getElem? h3.get))
  rcases h2 with h2 | ⟨-, h2⟩
  · exact ⟨j, t', y, h3, h2, h5⟩
  · cases h2

/-- C33 -/
theorem plain_no_branch (h : Reading σ view w r d rd rest)
    {p x t rs} (hp : Sees w.env r.env d w.root r.root p x t (.union rs)) (hn : t ≠ .null) (hnu : ∀ ts, t ≠ .union ts)
    (hno : ∀ t' ∈ rs, ¬ CanRead w.env r.env t t') : Fails σ w r rd := by
  refine part_fails h hp ?_
  cases hx : resolve (fun _ => true) σ.dv w.env r.env x t (.union rs) with
  | none => rfl
  | some v =>
    obtain ⟨j, t', h3, -⟩ := resolve_wrap hn hnu hx
    exact absurd h3.holds (hno t' (List.mem_of_getElem? h3.get))
end

/-! ### C35 -/

/-- C35: `IsReadableBy` is the table of the specification. -/
theorem isReadableBy_table (we re : Env) (w r : Ty) : w.readableBy we re r = true ↔ CanRead we re w r := readable_iff

mutual
/-- References resolve and unions have members. -/
def Whole (env : Env) : Ty → Prop
  | .array t => Whole env t
  | .map t => Whole env t
  | .union ts => ts ≠ [] ∧ AllWhole env ts
  | .ref q => ∃ d, env.find q = some d
  | _ => True
def AllWhole (env : Env) : List Ty → Prop
  | [] => True
  | t :: ts => Whole env t ∧ AllWhole env ts
end

theorem canRead_self (env : Env) : ∀ t : Ty, Whole env t → CanRead env env t t
  | .null, _ => .null
  | .bool, _ => .bool
  | .int, _ => .int
  | .long, _ => .long
  | .float, _ => .float
  | .double, _ => .double
  | .bytes, _ => .bytes
  | .string, _ => .string
  | .array t, h => .array (canRead_self env t h)
  | .map t, h => .map (canRead_self env t h)
  | .ref q, h => by
    obtain ⟨d, hd⟩ := h
    exact .ref hd hd (.inl rfl) (by cases d.kind <;> simp [SameKind])
  | .union [], h => absurd rfl h.1
  | .union (t :: ts), h => .ofUnion List.mem_cons_self (.intoUnion List.mem_cons_self (canRead_self env t h.2.1))

/-- C35: every resolved schema without empty unions can read itself. -/
theorem isReadableBy_refl (env : Env) (t : Ty) (h : Whole env t) : t.readableBy env env t = true :=
  readable_iff.2 (canRead_self env t h)

/-- C35: an empty union cannot be read, not even by itself. -/
theorem isReadableBy_empty (env : Env) : Ty.readableBy env env (.union []) (.union []) = false := by
  simp [Ty.readableBy, Ty.anyReadable]

/-- C35: unions, on either side. -/
theorem isReadableBy_unions (we re : Env) (ts : List Ty) (t : Ty) :
    (Ty.readableBy we re (.union ts) t = true ↔ ∃ x ∈ ts, x.readableBy we re t = true) ∧
    (t.readableBy we re (.union ts) = true ↔ ∃ x ∈ ts, t.readableBy we re x = true) :=
  ⟨readables_of ts t, readable_into t ts⟩

end Verif.Props
