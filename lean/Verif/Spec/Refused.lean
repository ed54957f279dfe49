import Verif.Spec.Path
/-
When two schemas do not fit together. `Refused lax we re w r`: while data of type `w` is
matched with the reader's type `r` (`none`: the reader has no use for the data), a place is
met where the schemas do not fit. With `lax` the names of definitions need not match.
-/
namespace Verif

/-- `rf`, the `j`th field, is the first one with the name or alias `n`. -/
structure Answers (rfs : List Field) (n : Str) (j : Nat) (rf : Field) : Prop where
  get : rfs[j]? = some rf
  answers : rf.answers n
  first : ∀ (i : Nat) (g : Field), i < j → rfs[i]? = some g → ¬ g.answers n

/-- The two are references to records with these fields. -/
structure Records (we re : Env) (q q' : QName) (wfs rfs : List Field) : Prop where
  writer : ∃ wd, we.find q = some wd ∧ wd.kind = .record wfs
  reader : ∃ rd, re.find q' = some rd ∧ rd.kind = .record rfs

inductive Refused (lax : Bool) (we re : Env) : Ty → Option Ty → Prop
  /-- no member of the reader's union can read the type -/
  | noMember {w rs} : (∀ ts, w ≠ .union ts) → (∀ t ∈ rs, ¬ CanRead we re w t) → Refused lax we re w (some (.union rs))
  | member {w rs j t} : (∀ ts, w ≠ .union ts) → First (CanRead we re w) rs j t → Refused lax we re w (some t) →
      Refused lax we re w (some (.union rs))
  /-- an array is read as something else -/
  | array {w r} : (∀ t, r ≠ .array t) → (∀ rs, r ≠ .union rs) → Refused lax we re (.array w) (some r)
  | item {w r} : Refused lax we re w (some r) → Refused lax we re (.array w) (some (.array r))
  | itemSkipped {w} : Refused lax we re w none → Refused lax we re (.array w) none
  /-- a map is read as something else -/
  | map {w r} : (∀ t, r ≠ .map t) → (∀ rs, r ≠ .union rs) → Refused lax we re (.map w) (some r)
  | value {w r} : Refused lax we re w (some r) → Refused lax we re (.map w) (some (.map r))
  | valueSkipped {w} : Refused lax we re w none → Refused lax we re (.map w) none
  /-- a definition is read as something else -/
  | ref {q r} : (∀ q', r ≠ .ref q') → (∀ rs, r ≠ .union rs) → Refused lax we re (.ref q) (some r)
  /-- a name without definition -/
  | unknown {q r} : we.find q = none → (∀ rs, r ≠ some (.union rs)) → Refused lax we re (.ref q) r
  | unknownReader {q q'} : re.find q' = none → Refused lax we re (.ref q) (some (.ref q'))
  /-- the names of the definitions, or the sizes of fixeds, do not match -/
  | names {q q' wd rd} : lax = false → we.find q = some wd → re.find q' = some rd →
      ¬ (SameName wd rd ∧ SameKind wd.kind rd.kind) → Refused lax we re (.ref q) (some (.ref q'))
  /-- a record, enum or fixed is read as another of these three -/
  | kinds {q q' wd rd} : we.find q = some wd → re.find q' = some rd →
      (match wd.kind, rd.kind with
        | .record _, .record _ => False | .enum _ _, .enum _ _ => False | .fixed _, .fixed _ => False | _, _ => True) →
      Refused lax we re (.ref q) (some (.ref q'))
  /-- the type of a field cannot be read as that of the reader's field -/
  | fieldType {q q' wfs rfs wf j rf} : Records we re q q' wfs rfs → wf ∈ wfs → Answers rfs wf.name j rf →
      ¬ CanRead we re wf.ty rf.ty → Refused lax we re (.ref q) (some (.ref q'))
  | field {q q' wfs rfs wf j rf} : Records we re q q' wfs rfs → wf ∈ wfs → Answers rfs wf.name j rf →
      Refused lax we re wf.ty (some rf.ty) → Refused lax we re (.ref q) (some (.ref q'))
  | fieldDropped {q q' wfs rfs wf} : Records we re q q' wfs rfs → wf ∈ wfs → (∀ rf ∈ rfs, ¬ rf.answers wf.name) →
      Refused lax we re wf.ty none → Refused lax we re (.ref q) (some (.ref q'))
  | fieldSkipped {q wd wfs wf} : we.find q = some wd → wd.kind = .record wfs → wf ∈ wfs →
      Refused lax we re wf.ty none → Refused lax we re (.ref q) none
  /-- a field that the writer does not have, without default -/
  | noDefault {q q' wfs rfs j rf} : Records we re q q' wfs rfs → rfs[j]? = some rf →
      (∀ wf ∈ wfs, ¬ Answers rfs wf.name j rf) → rf.dflt = none → Refused lax we re (.ref q) (some (.ref q'))
  /-- the reader lacks a symbol, and its default is not one of its symbols -/
  | enumDefault {q q' wd rd ws wdf rs df s} : we.find q = some wd → re.find q' = some rd → wd.kind = .enum ws wdf →
      rd.kind = .enum rs df → s ∈ ws → s ∉ rs → df ≠ [] → df ∉ rs → Refused lax we re (.ref q) (some (.ref q'))
  /-- from a union -/
  | ofUnion {ts t rs j r} : t ∈ ts → t ≠ .null → Picks we re t rs j r → Refused lax we re t (some r) →
      Refused lax we re (.union ts) (some (.union rs))
  | ofUnionPlain {ts t r} : t ∈ ts → t ≠ .null → (∀ rs, r ≠ .union rs) → CanRead we re t r →
      Refused lax we re t (some r) → Refused lax we re (.union ts) (some r)
  | ofUnionSkipped {ts t} : t ∈ ts → Refused lax we re t none → Refused lax we re (.union ts) none

end Verif
