import Verif.Gen.Agreement
import Verif.Gen.ParseProps
import Verif.Gen.Self
import Verif.Compiler.WF
/-
The generated `DeserializeX` and `DeserializeXFromSchema`: compile, then evaluate on a
fresh value. What they do in terms of `parse` and `resolve`.
-/
namespace Verif
set_option linter.unusedSimpArgs false
set_option linter.unusedVariables false

/-- What a call depends on besides its arguments: how the `io.Reader` behaves, above which
size `make` panics, the Go values of the declared defaults, and the order in which Go
iterates over the compiler's maps. -/
structure Setting (R : Type) where
  ro : ReaderOps R
  lim : Nat
  dv : Field → Val
  ord : Orders

/-- How a call of `DeserializeXFromSchema` ends. -/
inductive Res (R : Type) where
  /-- the compiler returned an error -/
  | refused
  /-- `vm.Eval` returned an error, or recovered from a panic -/
  | failed
  /-- a nil error, the value, and what is left of the input -/
  | value (v : Val) (rd : R)
  /-- a nil error, but part of the value was never assigned -/
  | junk

/-- `DeserializeXFromSchema(r, schema)`, templates/record.go:57-66 and
templates/union.go:85-101: `w` is the parsed `schema`, `r` the parsed schema of X. With
`w = r` it is `DeserializeX(r)`, record.go:45-55 and union.go:67-83. The returned value is
what the target holds when an error is returned too; that is not part of the outcome. -/
inductive Deserializes {R : Type} (σ : Setting R) (w r : Schema) (rd : R) : Res R → Prop
  | refused {e} : compile σ.ord false w r = .error e → Deserializes σ w r rd .refused
  | failed {prog e} : compile σ.ord false w r = .ok prog →
      Evaluates σ.ro (genOps r.env σ.lim σ.dv) prog rd (.new r.env r.root none) (.error e) →
      Deserializes σ w r rd .failed
  | value {prog rd' t v} : compile σ.ord false w r = .ok prog →
      Evaluates σ.ro (genOps r.env σ.lim σ.dv) prog rd (.new r.env r.root none) (.ok (rd', t)) →
      t.val = some v → Deserializes σ w r rd (.value v rd')
  | junk {prog rd' t} : compile σ.ord false w r = .ok prog →
      Evaluates σ.ro (genOps r.env σ.lim σ.dv) prog rd (.new r.env r.root none) (.ok (rd', t)) →
      t.val = none → Deserializes σ w r rd .junk

/-- Conditions on a pair of schemas: those of `Sound`, the reader's definitions have no
built-in name, the fields of its records have different names, and its root is a record or a
union (there are `Deserialize` functions for these only). -/
structure Suited (w r : Schema) : Prop extends Sound w r where
  plain : PlainNames r.env
  fields : FieldsOK r.env
  top : r.root.IsRecord r.env ∨ r.root.isUnion = true

/-- A call has one outcome. -/
theorem Evaluates.det {R T : Type} {ro : ReaderOps R} {fo : FieldOps T} {p : Program} {r : R} {t : T}
    {a b : Except Err (R × T)} (ha : Evaluates ro fo p r t a) (hb : Evaluates ro fo p r t b) : a = b := by
  obtain ⟨n, hn⟩ := ha
  obtain ⟨m, hm⟩ := hb
  unfold evalProg at hn hm
  have key : ∀ k o, evalInner ro fo p k 0 {} false r t = o → o ≠ .timeout → ∀ j, k ≤ j →
      evalInner ro fo p j 0 {} false r t = o := by
    intro k o h ho j hj
    subst h
    exact evalInner_mono ro fo p k _ _ _ _ _ ho j hj
  cases h1 : evalInner ro fo p n 0 {} false r t with
  | timeout => rw [h1] at hn; cases a <;> cases hn
  | err e =>
    rw [h1] at hn
    have h1' := key _ _ h1 (by simp) (max n m) (Nat.le_max_left _ _)
    cases h2 : evalInner ro fo p m 0 {} false r t with
    | timeout => rw [h2] at hm; cases b <;> cases hm
    | err e' =>
      rw [h2] at hm
      have h2' := key _ _ h2 (by simp) (max n m) (Nat.le_max_right _ _)
      rw [h1'] at h2'; cases h2'
      cases a <;> cases b <;> simp_all
    | done x =>
      have h2' := key _ _ h2 (by simp) (max n m) (Nat.le_max_right _ _)
      rw [h1'] at h2'; cases h2'
  | done x =>
    rw [h1] at hn
    have h1' := key _ _ h1 (by simp) (max n m) (Nat.le_max_left _ _)
    cases h2 : evalInner ro fo p m 0 {} false r t with
    | timeout => rw [h2] at hm; cases b <;> cases hm
    | err e' =>
      have h2' := key _ _ h2 (by simp) (max n m) (Nat.le_max_right _ _)
      rw [h1'] at h2'; cases h2'
    | done y =>
      rw [h2] at hm
      have h2' := key _ _ h2 (by simp) (max n m) (Nat.le_max_right _ _)
      rw [h1'] at h2'; cases h2'
      cases a <;> cases b <;> simp_all

theorem Deserializes.det {R : Type} {σ : Setting R} {w r : Schema} {rd : R} {a b : Res R}
    (ha : Deserializes σ w r rd a) (hb : Deserializes σ w r rd b) : a = b := by
  cases ha with
  | refused h => cases hb with
    | refused => rfl
    | failed h' => rw [h] at h'; cases h'
    | value h' => rw [h] at h'; cases h'
    | junk h' => rw [h] at h'; cases h'
  | failed h he => cases hb with
    | refused h' => rw [h] at h'; cases h'
    | failed h' => rfl
    | value h' he' => rw [h] at h'; cases h'; cases he.det he'
    | junk h' he' => rw [h] at h'; cases h'; cases he.det he'
  | value h he hv => cases hb with
    | refused h' => rw [h] at h'; cases h'
    | failed h' he' => rw [h] at h'; cases h'; cases he.det he'
    | value h' he' hv' => rw [h] at h'; cases h'; cases he.det he'; rw [hv] at hv'; cases hv'; rfl
    | junk h' he' hv' => rw [h] at h'; cases h'; cases he.det he'; rw [hv] at hv'; cases hv'
  | junk h he hv => cases hb with
    | refused h' => rw [h] at h'; cases h'
    | failed h' he' => rw [h] at h'; cases h'; cases he.det he'
    | value h' he' hv' => rw [h] at h'; cases h'; cases he.det he'; rw [hv] at hv'; cases hv'
    | junk h' => rfl

section
variable {R : Type} {σ : Setting R} {w r : Schema} {prog : Program}

/-- What is read and what becomes of it. -/
theorem decode_agree (hs : Suited w r) (hR : FullReads σ.ro) (hc : compile σ.ord false w r = .ok prog)
    (rd : R) (n : Nat) :
    ∃ m, ValFits r.root ((parse σ.ro σ.lim w.env n w.root rd).on fun d =>
        resolve Datum.skippable σ.dv w.env r.env d w.root r.root)
      (interp σ.ro (genOps r.env σ.lim σ.dv) w.env r.env false m w.root (some r.root) rd (.new r.env r.root none)) ∧
      (∀ f rd' t', interp σ.ro (genOps r.env σ.lim σ.dv) w.env r.env false m w.root (some r.root) rd
          (.new r.env r.root none) = .done (f, rd', t') →
        Evaluates σ.ro (genOps r.env σ.lim σ.dv) prog rd (.new r.env r.root none) (.ok (rd', t'))) ∧
      (∀ e, interp σ.ro (genOps r.env σ.lim σ.dv) w.env r.env false m w.root (some r.root) rd
          (.new r.env r.root none) = .err e →
        Evaluates σ.ro (genOps r.env σ.lim σ.dv) prog rd (.new r.env r.root none) (.error e)) := by
  obtain ⟨main, st, h1, h2⟩ := compile_ok hc
  obtain ⟨hcol, hnn⟩ := hs.toSound.clean h1
  have hF : Fair w.env r.env := ⟨hs.sizes, hs.tidyW, hs.tidyR, hs.plain, hs.fields⟩
  have hcomp : Comp w.env r.env w.root r.root := by
    rcases hs.top with h | h
    · exact .inr (.inr (.inl h))
    · exact .inr (.inr (.inr (.inr h)))
  refine ⟨2 * n, main_agree hF hR n w.root r.root (2 * n) (Nat.le_refl _) hs.rootW hs.rootR hs.nulls hcomp rd none, ?_⟩
  exact run_compiled σ.ro _ hs.namesW hs.namesR hs.sizes (genOps_defaultsCommute _ _ _) h1 hcol hnn h2 _ rd _

/-- The root's target, finalized or not, has the same value. -/
theorem final_notMap {t : Tgt} {v : Val} (h : t.final.val = some v) (hv : ∀ es, v ≠ .map es) : t.val = some v := by
  cases t with
  | map i hh p c =>
    exfalso
    simp only [Tgt.final, Tgt.val] at h
    simp only [Option.map_eq_some_iff] at h
    obtain ⟨m, _, rfl⟩ := h
    exact hv m rfl
  | _ => exact h

theorem resolve_record_shape {drop dv we re q df fs} (hq : Env.find re q = some df) (hk : df.kind = .record fs) :
    ∀ (d : Datum) (w : Ty) (v : Val), resolve drop dv we re d w (.ref q) = some v → ∃ vs, v = .record vs
  | .null, w, v, h => by
    simp only [resolve, readNull, Ty.nullable] at h
    split at h <;> cases h
  | .bool _, w, v, h => by cases w <;> cases h
  | .int _, w, v, h => by cases w <;> cases h
  | .long _, w, v, h => by cases w <;> cases h
  | .float _, w, v, h => by cases w <;> cases h
  | .double _, w, v, h => by cases w <;> cases h
  | .bytes _, w, v, h => by cases w <;> cases h
  | .string _, w, v, h => by cases w <;> cases h
  | .array _, w, v, h => by cases w <;> cases h
  | .map _, w, v, h => by cases w <;> cases h
  | .fixed _, w, v, h => by
    cases w <;> simp only [resolve, intoReader, defAs, hq] at h <;> try cases h
    split at h <;> try cases h
    split at h <;> try cases h
    rename_i wd rd h1 h2 h3
    cases h2
    rw [hk] at h
    cases hw : wd.kind <;> rw [hw] at h <;> cases h
  | .enum _, w, v, h => by
    cases w <;> simp only [resolve, intoReader, defAs, hq] at h <;> try cases h
    split at h <;> try cases h
    split at h <;> try cases h
    rename_i wd rd h1 h2 h3
    cases h2
    rw [hk] at h
    cases hw : wd.kind <;> rw [hw] at h <;> cases h
  | .record ds, w, v, h => by
    cases w <;> simp only [resolve, intoReader, defAs, hq] at h <;> try cases h
    split at h <;> try cases h
    split at h <;> try cases h
    rename_i wd rd h1 h2 h3
    cases h2
    rw [hk] at h
    cases hw : wd.kind <;> rw [hw] at h <;> try cases h
    simp only at h
    split at h <;> try cases h
    simp only [Option.map_eq_some_iff] at h
    obtain ⟨vs, _, rfl⟩ := h
    exact ⟨vs, rfl⟩
  | .union i d, w, v, h => by
    cases w <;> simp only [resolve] at h <;> try cases h
    split at h <;> try cases h
    split at h
    · simp [readNull, Ty.nullable] at h
    · split at h
      · exact resolve_record_shape hq hk d _ v h
      · cases h

theorem intoReader_union_shape {we re w f rs v} (h : intoReader we re w f (.union rs) = some v) :
    ∃ tag u, v = .union tag (some u) := by
  simp only [intoReader] at h
  split at h
  · simp only [Option.map_eq_some_iff] at h
    obtain ⟨u, _, rfl⟩ := h
    exact ⟨_, _, rfl⟩
  · cases h

theorem resolve_union_shape {drop dv we re d w rs v} (h : resolve drop dv we re d w (.union rs) = some v) :
    v = .nil ∨ ∃ tag u, v = .union tag (some u) := by
  cases d
  case null =>
    simp only [resolve, readNull] at h
    split at h
    · split at h <;> cases h; exact .inl rfl
    · cases h
  case union i d =>
    cases w <;> simp only [resolve] at h <;> try cases h
    split at h <;> try cases h
    split at h
    · simp only [readNull] at h
      split at h <;> cases h; exact .inl rfl
    · split at h <;> try cases h
      simp only [Option.map_eq_some_iff] at h
      obtain ⟨u, _, rfl⟩ := h
      exact .inr ⟨_, _, rfl⟩
  all_goals
    cases w <;> simp only [resolve] at h <;> first
    | cases h; done
    | exact .inr (intoReader_union_shape h)

/-- The value read at the root is a record, a union, or null in place of a union. -/
theorem resolve_top_notMap {drop dv d v} (ht : r.root.IsRecord r.env ∨ r.root.isUnion = true)
    (h : resolve drop dv w.env r.env d w.root r.root = some v) : ∀ es, v ≠ .map es := by
  rcases ht with ⟨q, df, fs, h1, h2, h3⟩ | hu
  · rw [h1] at h
    obtain ⟨vs, rfl⟩ := resolve_record_shape h2 h3 d _ v h
    intro es he; cases he
  · obtain ⟨rs, hr⟩ : ∃ rs, r.root = .union rs := by
      cases hr : r.root <;> rw [hr] at hu <;> first | exact ⟨_, rfl⟩ | simp [Ty.isUnion] at hu
    rw [hr] at h
    rcases resolve_union_shape h with rfl | ⟨_, _, rfl⟩ <;> (intro es he; cases he)

/-- Decoding, when compiling succeeds: a datum that resolves is delivered. -/
theorem deserialize_value (hs : Suited w r) (hR : FullReads σ.ro) (hc : compile σ.ord false w r = .ok prog)
    {rd rd' : R} {n : Nat} {d : Datum} {v : Val}
    (hp : parse σ.ro σ.lim w.env n w.root rd = .done (d, rd'))
    (hv : resolve Datum.skippable σ.dv w.env r.env d w.root r.root = some v) (hn : v ≠ .nil) :
    Deserializes σ w r rd (.value v rd') := by
  obtain ⟨m, h1, h2, h3⟩ := decode_agree hs hR hc rd n
  rw [hp] at h1
  simp only [Out.on, hv, ValFits] at h1
  obtain ⟨t', h | h⟩ := h1
  · exact absurd h.2.1 hn
  · exact .value hc (h2 _ _ _ h.1) (final_notMap h.2 (resolve_top_notMap hs.top hv))

/-- Decoding, when compiling succeeds: a datum that does not resolve is an error. -/
theorem deserialize_unresolved (hs : Suited w r) (hR : FullReads σ.ro) (hc : compile σ.ord false w r = .ok prog)
    {rd rd' : R} {n : Nat} {d : Datum}
    (hp : parse σ.ro σ.lim w.env n w.root rd = .done (d, rd'))
    (hv : resolve Datum.skippable σ.dv w.env r.env d w.root r.root = none) :
    Deserializes σ w r rd .failed := by
  obtain ⟨m, h1, h2, h3⟩ := decode_agree hs hR hc rd n
  rw [hp] at h1
  simp only [Out.on, hv, ValFits] at h1
  obtain ⟨e, h⟩ := h1
  exact .failed hc (h3 _ h)

/-- Decoding, when compiling succeeds: input that cannot be read is an error. -/
theorem deserialize_unreadable (hs : Suited w r) (hR : FullReads σ.ro) (hc : compile σ.ord false w r = .ok prog)
    {rd : R} {n : Nat} {e : Err} (hp : parse σ.ro σ.lim w.env n w.root rd = .err e) :
    Deserializes σ w r rd .failed := by
  obtain ⟨m, h1, h2, h3⟩ := decode_agree hs hR hc rd n
  rw [hp] at h1
  simp only [Out.on, ValFits] at h1
  obtain ⟨e, h⟩ := h1
  exact .failed hc (h3 _ h)
end
end Verif
