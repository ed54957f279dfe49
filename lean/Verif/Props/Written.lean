import Verif.Parser.Reread
import Verif.Schema.Bisim
import Verif.Props.Canonical
import Verif.Props.Decode
import Verif.Props.Small
import Verif.Props.Check
/-
C67: the schema a generated type carries is one the library accepts, and describes the type.
C68: data written or read with that schema are the data of the original schema.
-/
namespace Verif.Props
open Verif Spec
set_option linter.unusedSimpArgs false
set_option linter.unusedVariables false

/-! ### C68: schemas that are the same -/

/-- Schemas that are the same have the same encodings. -/
theorem same_encodings {s s' : Schema} (h : Same s s') (hr : ∀ q, Reachable s q → ∃ d, s.env.find q = some d)
    (d : Datum) (bs : List Byte) : Enc s.env d s.root bs ↔ Enc s'.env d s'.root bs :=
  have hb := h.bisim hr
  ⟨enc_twin hb d _ _ bs ⟨h.root, fun q hq => .root hq⟩, enc_twin hb.flip d _ _ bs ⟨h.root, fun q hq => .root hq⟩⟩

/-- Data written with one of them are read as with the other; so are data read with one of them.
`dv` and `dv'` give the Go values of the defaults. -/
theorem same_resolution {w w' r r' : Schema} (hw : Same w w') (hr : Same r r')
    (hcw : ∀ q, Reachable w q → ∃ d, w.env.find q = some d) (hcr : ∀ q, Reachable r q → ∃ d, r.env.find q = some d)
    (drop : Datum → Bool) (dv dv' : Field → Val)
    (hdv : ∀ f f', f.name = f'.name → f.dflt = f'.dflt → AlikeTy r.env r'.env f.ty f'.ty → dv f = dv' f') (d : Datum) :
    resolve drop dv w.env r.env d w.root r.root = resolve drop dv' w'.env r'.env d w'.root r'.root :=
  resolve_twin (hw.bisim hcw) (hr.bisim hcr) (fun f f' h _ => hdv f f' h.name h.dflt h.ty.1) d _ _ _ _
    ⟨hw.root, fun q hq => .root hq⟩ ⟨hr.root, fun q hq => .root hq⟩

/-- `IsReadableBy` says the same of them. -/
theorem same_readability {w w' r r' : Schema} (hw : Same w w') (hr : Same r r')
    (hcw : ∀ q, Reachable w q → ∃ d, w.env.find q = some d) (hcr : ∀ q, Reachable r q → ∃ d, r.env.find q = some d) :
    w.root.readableBy w.env r.env r.root = w'.root.readableBy w'.env r'.env r'.root :=
  readable_twin (hw.bisim hcw) (hr.bisim hcr) ⟨hw.root, fun q hq => .root hq⟩ ⟨hr.root, fun q hq => .root hq⟩

/-! ### C67 -/

section
variable {short : Bool} {js : List Json} {n : NS}

/-- What the command has read: a namespace as the proofs want it. -/
theorem command_holds (h : parseCommand short js = .ok n) : ∃ ds, Holds n ds ∧ (∀ d ∈ ds, d.Sourced) ∧
    (∀ d ∈ ds, ∀ fs doc, d.kind = .record fs doc → ∀ f ∈ fs, ∀ q, Mentions f.ty q → ∃ d', n.find q = some d' ∧ d' ∈ ds) := by
  unfold parseCommand at h
  split at h
  · cases h
  rename_i n' h1
  split at h
  · cases h
  rename_i h2
  cases h
  obtain ⟨ts, ds, h3, h4, h5, -⟩ := parseFiles_ok (holds_empty short) (ts0 := []) ⟨fun t => by simp⟩ h1
  simp only [List.nil_append] at h4 h5
  have hc := (resolve_complete h4 h5).1 h2
  refine ⟨ds, h4, (filesDescribe_sourced h3).2, fun d hd fs doc hk f hf q hq => ?_⟩
  obtain ⟨d', h6, h7⟩ := hc.2 d hd fs doc hk f hf q hq
  exact ⟨d', (h4.find q d').2 ⟨h6, h7⟩, h6⟩

/-- Every definition the command has read that is a record has a text: `Schema()` does not fail. -/
theorem schema_written (h : parseCommand short js = .ok n) {q : QName} {d : PDef} (hd : n.find q = some d) {fs doc}
    (hk : d.kind = .record fs doc) : ∃ j, recordSchema n d = some j := by
  obtain ⟨ds, h1, h2, h3⟩ := command_holds h
  obtain ⟨h4, h5⟩ := (h1.find q d).1 hd
  exact recordSchema_exists (P := (· ∈ ds)) ⟨h2, h3⟩ ((h1.find _ _).2 ⟨h4, .inl rfl⟩) h4 hk

theorem leads_mem {ds : List PDef} (h1 : Holds n ds) {d : PDef} (hd : d ∈ ds) {e} (h : Leads n.find d e) : e ∈ ds := by
  induction h with
  | self => exact hd
  | field _ _ _ _ hf _ => exact ((h1.find _ _).1 hf).1

/-- `Schema()` of a generated record is accepted by the library's parser and describes the record, if
the definitions it leads to may be moved to the places where they are mentioned. -/
theorem schema_reparsed_partial (h : parseCommand short js = .ok n) {q : QName} {d : PDef} (hd : n.find q = some d) {fs doc}
    (hk : d.kind = .record fs doc) (hm : ∀ e, Leads n.find d e → FieldsMovable n.find e) :
    ∃ j s, recordSchema n d = some j ∧ parseSchema j = .ok s ∧ Same ⟨n.env, .ref d.name⟩ s := by
  obtain ⟨ds, h1, h2, h3⟩ := command_holds h
  obtain ⟨h4, -⟩ := (h1.find q d).1 hd
  obtain ⟨j, hj⟩ := schema_written h hd hk
  have hP : AllMovable n (Leads n.find d) := by
    refine ⟨fun e he => h2 e (leads_mem h1 h4 he), fun e he fs doc hk f hf q hq => ?_⟩
    obtain ⟨e', h5, -⟩ := h3 e (leads_mem h1 h4 he) fs doc hk f hf q hq
    exact ⟨e', h5, .field he hk hf hq h5, hm e he fs doc hk f hf q hq e' h5⟩
  obtain ⟨s, h5, h6, -⟩ := recordSchema_same h1 hP h4 .self hk hj
  exact ⟨j, s, hj, h5, h6⟩

/-- The same for unions. They are written outside any namespace. -/
theorem union_schema_reparsed_partial (h : parseCommand short js = .ok n) {e : PDef} {q : QName} (he : n.find q = some e)
    {fs doc f nm ts js'} (hk : e.kind = .record fs doc) (hf : f ∈ fs) (hu : f.ty = .union nm ts js')
    (hm : ∀ q, Mentions f.ty q → ∀ d, n.find q = some d → Movable [] d ∧ ∀ d', Leads n.find d d' → FieldsMovable n.find d') :
    ∃ j s, unionSchema n ts = some j ∧ parseSchema j = .ok s ∧ Same ⟨n.env, f.ty.erase⟩ s := by
  obtain ⟨ds, h1, h2, h3⟩ := command_holds h
  obtain ⟨h4, -⟩ := (h1.find q e).1 he
  let P : PDef → Prop := fun d' => ∃ q d, Mentions f.ty q ∧ n.find q = some d ∧ Leads n.find d d'
  have hPds : ∀ d, P d → d ∈ ds := fun d ⟨q, d0, a1, a2, a3⟩ => leads_mem h1 ((h1.find _ _).1 a2).1 a3
  have hP : AllMovable n P := by
    refine ⟨fun e he => h2 e (hPds e he), fun e he fs doc hk f hf q hq => ?_⟩
    obtain ⟨e', h5, -⟩ := h3 e (hPds e he) fs doc hk f hf q hq
    obtain ⟨q0, d0, a1, a2, a3⟩ := he
    exact ⟨e', h5, ⟨q0, d0, a1, a2, .field a3 hk hf hq h5⟩, (hm q0 a1 d0 a2).2 e a3 fs doc hk f hf q hq e' h5⟩
  have hs : PTy.AllSourced ts := by
    have := ((h2 e h4).record fs doc hk).2.1 f hf
    have := this.ty
    rw [hu] at this
    simpa only [PTy.Sourced] using this
  have hmen : ∀ t ∈ ts, ∀ q, Mentions t q → ∃ d, n.find q = some d ∧ P d ∧ Movable [] d := by
    intro t ht q hq
    have hq' : Mentions f.ty q := by rw [hu]; exact .union ht hq
    obtain ⟨d, h5, -⟩ := h3 e h4 fs doc hk f hf q hq'
    exact ⟨d, h5, ⟨q, d, hq', h5, .self⟩, (hm q hq' d h5).1⟩
  obtain ⟨j, hj⟩ := unionSchema_exists hP.closedDefs hs fun t ht q hq => by
    obtain ⟨d, b1, b2, -⟩ := hmen t ht q hq
    exact ⟨d, b1, b2⟩
  obtain ⟨s, h5, h6, -⟩ := unionSchema_same h1 hP hs hmen hj
  exact ⟨j, s, hj, h5, by rw [hu]; exact h6⟩

/-! When definitions may be moved. -/

theorem nameOf_own {enc : Str} {o : JObj} {q : QName} (h : NameOf enc o q) : NameOf q.ns o q := by
  obtain ⟨name, ns, h1, h2, h3⟩ := h
  refine ⟨name, ns, h1, h2, ?_⟩
  cases h3 with
  | dotted ns' n' h4 => exact .dotted _ _ h4
  | plain n' h4 =>
    by_cases hn : ns = []
    · rw [if_pos hn, if_pos hn]; exact .plain _ h4
    · rw [if_neg hn, if_neg hn]; exact .plain _ h4

theorem fullName_own {q : QName} (h : '.' ∉ q.name) : FullName q.ns q.str q := by
  obtain ⟨ns, nm⟩ := q
  unfold QName.str
  by_cases hn : ns = []
  · subst hn; rw [if_pos rfl]; exact .plain _ h
  · rw [if_neg hn]; exact .dotted _ _ h

theorem dotted_not_prim {s : Str} (h : '.' ∈ s) (p : Prim) : (s, p) ∉ primNames := by
  intro hp
  simp only [primNames, List.mem_cons, List.not_mem_nil, or_false, Prod.mk.injEq] at hp
  rcases hp with ⟨rfl, -⟩ | ⟨rfl, -⟩ | ⟨rfl, -⟩ | ⟨rfl, -⟩ | ⟨rfl, -⟩ | ⟨rfl, -⟩ | ⟨rfl, -⟩ | ⟨rfl, -⟩ <;>
    exact absurd h (by decide)

/-- Every definition of an accepted document names itself by the rules. -/
theorem described_named {short : Bool} {name enc : Str} {j : Json} {t : PTy} {ds : List PDef}
    (h : Describes short name enc j t ds) : ∀ d ∈ ds, NameOf d.name.ns d.defn d.name ∧
      (∀ ss doc dflt, d.kind = .enum ss doc dflt → ∃ ns, AliasesOf ns d.defn d.aliases) := by
  refine Describes.rec
    (motive_1 := fun _ _ _ t ds _ => ∀ d ∈ ds, NameOf d.name.ns d.defn d.name ∧
      (∀ ss doc dflt, d.kind = .enum ss doc dflt → ∃ ns, AliasesOf ns d.defn d.aliases))
    (motive_2 := fun _ _ _ ts ds _ => ∀ d ∈ ds, NameOf d.name.ns d.defn d.name ∧
      (∀ ss doc dflt, d.kind = .enum ss doc dflt → ∃ ns, AliasesOf ns d.defn d.aliases))
    (motive_3 := fun _ _ fs ds _ => ∀ d ∈ ds, NameOf d.name.ns d.defn d.name ∧
      (∀ ss doc dflt, d.kind = .enum ss doc dflt → ∃ ns, AliasesOf ns d.defn d.aliases))
    ?_ ?_ ?_ ?_ ?_ ?_ ?_ ?_ ?_ ?_ ?_ ?_ ?_ ?_ h
  · intro name enc s p _ d hd; cases hd
  · intro name enc s q _ _ d hd; cases hd
  · intro name enc js ts ds _ ih; exact ih
  · intro name enc o j t ds _ _ _ ih; exact ih
  · intro name enc o j t ds _ _ _ ih; exact ih
  · intro name enc o q qs ss doc dflt _ h2 _ h4 _ _ d hd
    simp only [List.mem_singleton] at hd
    subst hd
    exact ⟨nameOf_own h2, fun _ _ _ _ => ⟨_, h4⟩⟩
  · intro name enc o q qs size _ h2 _ h4 d hd
    simp only [List.mem_singleton] at hd
    subst hd
    exact ⟨nameOf_own h2, fun _ _ _ h => by cases h⟩
  · intro name enc o q qs js fs doc ds _ h2 _ h4 _ _ ih d hd
    simp only [List.mem_append, List.mem_singleton] at hd
    rcases hd with hd | rfl
    · exact ih d hd
    · exact ⟨nameOf_own h2, fun _ _ _ h => by cases h⟩
  · intro name enc o s p _ _ d hd; cases hd
  · intro name enc o s q _ _ _ _ d hd; cases hd
  · intro name enc d hd; cases hd
  · intro name enc j js t ts ds ds' _ _ ih1 ih2 d hd
    rcases List.mem_append.1 hd with hd | hd
    · exact ih1 d hd
    · exact ih2 d hd
  · intro ns d hd; cases hd
  · intro ns o js j name t al doc tags fs ds ds' _ _ _ _ _ _ _ ih1 ih2 d hd
    rcases List.mem_append.1 hd with hd | hd
    · exact ih1 d hd
    · exact ih2 d hd

theorem files_named {short : Bool} {js : List Json} {ts : List PTy} {ds : List PDef} (h : FilesDescribe short js ts ds) :
    ∀ d ∈ ds, NameOf d.name.ns d.defn d.name ∧
      (∀ ss doc dflt, d.kind = .enum ss doc dflt → ∃ ns, AliasesOf ns d.defn d.aliases) := by
  induction h with
  | nil => intro d hd; cases hd
  | cons h1 _ ih =>
    intro d hd
    rcases List.mem_append.1 hd with hd | hd
    · exact described_named h1 d hd
    · exact ih d hd

theorem command_named (h : parseCommand short js = .ok n) {q d} (hd : n.find q = some d) :
    '.' ∉ d.name.name ∧ NameOf d.name.ns d.defn d.name ∧
      (∀ ss doc dflt, d.kind = .enum ss doc dflt → ∃ ns, AliasesOf ns d.defn d.aliases) := by
  obtain ⟨ts, ds, h1, h2⟩ := command_means short js n h
  have h3 := ((h2 q d).1 hd).1
  exact ⟨((filesDescribe_sourced h1).2 d h3).plain, files_named h1 d h3⟩

theorem noAliases {ns : Str} {o : JObj} (h : AliasesOf ns o []) (ns' : Str) : AliasesOf ns' o [] := by
  obtain ⟨ss, h1, h2⟩ := h
  cases h2
  exact ⟨[], h1, .nil⟩

/-- Definitions in one namespace may be moved. -/
theorem movable_one_namespace (h : parseCommand short js = .ok n) (ns : Str)
    (hns : ∀ q d, n.find q = some d → d.name.ns = ns)
    (hal : ∀ q d ss doc dflt, n.find q = some d → d.kind = .enum ss doc dflt → d.aliases = [])
    (hpr : ∀ q d p, n.find q = some d → (d.name.str, p) ∉ primNames)
    {q : QName} {d : PDef} (hd : n.find q = some d) : ∀ e, Leads n.find d e → FieldsMovable n.find e := by
  intro e he fs doc hk f hf q hq e' he'
  obtain ⟨h1, h2, h3⟩ := command_named h he'
  have hens : e.name.ns = ns := by
    cases he with
    | self => exact hns _ _ hd
    | field _ _ _ _ h => exact hns _ _ h
  have heq : e.name.ns = e'.name.ns := by rw [hens, hns _ _ he']
  rw [heq]
  refine ⟨h2, fun ss doc dflt hk' => ?_, fullName_own h1, fun p => hpr _ _ p he'⟩
  obtain ⟨x, hx⟩ := h3 ss doc dflt hk'
  rw [hal _ _ ss doc dflt he' hk'] at hx ⊢
  exact noAliases hx _

/-- If all definitions are in one namespace, no enum has aliases and no type is called like a
primitive type, the schema of every generated record is accepted and describes the record. -/
theorem schema_reparsed_one_namespace (h : parseCommand short js = .ok n) (ns : Str)
    (hns : ∀ q d, n.find q = some d → d.name.ns = ns)
    (hal : ∀ q d ss doc dflt, n.find q = some d → d.kind = .enum ss doc dflt → d.aliases = [])
    (hpr : ∀ q d p, n.find q = some d → (d.name.str, p) ∉ primNames)
    {q : QName} {d : PDef} (hd : n.find q = some d) {fs doc} (hk : d.kind = .record fs doc) :
    ∃ j s, recordSchema n d = some j ∧ parseSchema j = .ok s ∧ Same ⟨n.env, .ref d.name⟩ s :=
  schema_reparsed_partial h hd hk (movable_one_namespace h ns hns hal hpr hd)

/-- A definition spells out its namespace: its name has a dot, with something before it, or it has
a `namespace` attribute. -/
def SpelledOut (d : PDef) : Prop :=
  d.name.ns ≠ [] ∧ ((∃ ns x, d.defn.lookup "name".toList = some (.str (ns ++ '.' :: x))) ∨
    ∃ ns, ns ≠ [] ∧ d.defn.lookup "namespace".toList = some (.str ns))

theorem nameOf_spelled {enc : Str} {o : JObj} {q : QName} (h : NameOf enc o q)
    (hs : (∃ ns x, o.lookup "name".toList = some (.str (ns ++ '.' :: x))) ∨
      ∃ ns, ns ≠ [] ∧ o.lookup "namespace".toList = some (.str ns)) (enc' : Str) : NameOf enc' o q := by
  obtain ⟨name, ns, h1, h2, h3⟩ := h
  refine ⟨name, ns, h1, h2, ?_⟩
  cases h3 with
  | dotted ns' n' h4 => exact .dotted _ _ h4
  | plain n' h4 =>
    rcases hs with ⟨ns', x, h5⟩ | ⟨ns', h5, h7⟩
    · rw [h5] at h1
      cases h1
      exact absurd h4 (by simp)
    · rcases h2 with h2 | ⟨h2, -⟩
      · rw [h7] at h2
        cases h2
        rw [if_neg h5, if_neg h5]
        exact .plain _ h4
      · rw [h7] at h2; cases h2

/-- If all definitions spell out their namespaces and no enum has aliases, the schema of every
generated record is accepted and describes the record, however many namespaces there are. -/
theorem schema_reparsed_spelled_out (h : parseCommand short js = .ok n)
    (hns : ∀ q d, n.find q = some d → SpelledOut d)
    (hal : ∀ q d ss doc dflt, n.find q = some d → d.kind = .enum ss doc dflt → d.aliases = [])
    {q : QName} {d : PDef} (hd : n.find q = some d) {fs doc} (hk : d.kind = .record fs doc) :
    ∃ j s, recordSchema n d = some j ∧ parseSchema j = .ok s ∧ Same ⟨n.env, .ref d.name⟩ s := by
  refine schema_reparsed_partial h hd hk fun e he fs doc hk f hf q hq e' he' => ?_
  obtain ⟨h1, h2, h3⟩ := command_named h he'
  obtain ⟨h4, h5⟩ := hns _ _ he'
  have hstr : e'.name.str = e'.name.ns ++ '.' :: e'.name.name := by unfold QName.str; rw [if_neg h4]
  refine ⟨?_, fun ss doc dflt hk' => ?_, ?_, fun p => dotted_not_prim (by rw [hstr]; simp) p⟩
  · exact nameOf_spelled h2 h5 _
  · obtain ⟨x, hx⟩ := h3 ss doc dflt hk'
    rw [hal _ _ ss doc dflt he' hk'] at hx ⊢
    exact noAliases hx _
  · rw [hstr]; exact .dotted _ _ h1

/-- Every name met from a definition the command has read has its definition. -/
theorem command_resolved (h : parseCommand short js = .ok n) {q0 d0} (h0 : n.find q0 = some d0) (q : QName)
    (hq : Reachable ⟨n.env, .ref q0⟩ q) : ∃ d, n.env.find q = some d := by
  obtain ⟨ds, h1, h2, h3⟩ := command_holds h
  have key : ∃ d, n.find q = some d := by
    cases hq with
    | root hm => cases hm; exact ⟨_, h0⟩
    | field _ hd hk hf hm =>
      rw [env_find, Option.map_eq_some_iff] at hd
      obtain ⟨p, hp, rfl⟩ := hd
      unfold PDef.erase at hk
      simp only at hk
      split at hk
      · rename_i fs doc hpk
        cases hk
        obtain ⟨f', hf', rfl⟩ := List.mem_map.1 hf
        obtain ⟨d', h4, -⟩ := h3 p ((h1.find _ _).1 hp).1 fs doc hpk f' hf' q (mentions_erase _ _ hm)
        exact ⟨d', h4⟩
      · cases hk
      · cases hk
  obtain ⟨d, hd⟩ := key
  exact ⟨d.erase, by rw [env_find, hd]; rfl⟩

/-! ### C68 -/

/-- A schema read back that describes the record has the record's encodings, its canonical form and its
fingerprint. -/
theorem schema_same_data (h : parseCommand short js = .ok n) {q : QName} {d : PDef} (hd : n.find q = some d)
    {j : Json} {s : Schema} (hj : parseSchema j = .ok s) (hs : Same ⟨n.env, .ref d.name⟩ s) :
    (∀ dat bs, Enc n.env dat (.ref d.name) bs ↔ Enc s.env dat s.root bs) ∧
    canonicalText ⟨n.env, .ref d.name⟩ = canonicalText s ∧
    recordFingerprint ⟨n.env, .ref d.name⟩ = recordFingerprint s := by
  obtain ⟨ds, h1, -, -⟩ := command_holds h
  have hown : n.find d.name = some d := (h1.find _ _).2 ⟨((h1.find _ _).1 hd).1, .inl rfl⟩
  have hr := command_resolved h hown
  refine ⟨fun dat bs => same_encodings hs hr dat bs, ?_⟩
  have hr' := parse_resolved j s hj
  have ha := hs.alike
  have key : canonicalText ⟨n.env, .ref d.name⟩ = canonicalText s := by
    obtain ⟨c, v, h1⟩ := canonical_exists hr
    have h2 := (canonicalForm_iff hr).2 ⟨_, _, h1⟩
    rw [canon_alike (reachable_closed hr) (fun q hq d hd q' d' hd' hn => ha.defs q hq d hd q' d' hd' hn) _ _ _ _ ha.root
      fun q hq => .root hq] at h1
    have h3 := (canonicalForm_iff hr').2 ⟨_, _, h1⟩
    unfold canonicalText
    rw [h2, h3]
  refine ⟨key, ?_⟩
  unfold recordFingerprint
  rw [key]

variable {R : Type} {σ : Setting R} {view : R → List Byte}

/-- Reading with the schema the type carries: bytes that encode a datum of the record are read as the
record's definition says. `dv` gives the Go values of the defaults the definition declares. -/
theorem own_schema_reads (h : parseCommand short js = .ok n) {q : QName} {d : PDef} (hq : n.find q = some d)
    {s : Schema} (hsame : Same ⟨n.env, .ref d.name⟩ s) (hs : Suited s s) (hd : σ.ro.Delivers view) (hl : σ.lim < 2 ^ 63)
    (dv : Field → Val)
    (hdv : ∀ f f', f.name = f'.name → f.dflt = f'.dflt → AlikeTy n.env s.env f.ty f'.ty → dv f = σ.dv f')
    {prog} (hc : compile σ.ord false s s = .ok prog) {dat : Datum} (hw : dat.within σ.lim) {e rest : List Byte}
    (he : Enc n.env dat (.ref d.name) e) {rd : R} (hin : view rd = e ++ rest) :
    match resolve Datum.skippable dv n.env n.env dat (.ref d.name) (.ref d.name) with
    | some v => ∃ rd', Deserializes σ s s rd (.value (rootVal v) rd') ∧ view rd' = rest
    | none => Deserializes σ s s rd .failed := by
  obtain ⟨ds, h1, -, -⟩ := command_holds h
  have hown : n.find d.name = some d := (h1.find _ _).2 ⟨((h1.find _ _).1 hq).1, .inl rfl⟩
  have hr := command_resolved h hown
  have h2 := same_resolution hsame hsame hr hr Datum.skippable dv σ.dv hdv dat
  dsimp only at h2
  rw [h2]
  exact resolution_partial hs hd hl hc hw ((same_encodings hsame hr dat e).1 he) hin
end

/-! ### Concrete schemas -/

/-- The command reads the documents and the outcome passes a check. -/
def readAs (js : List Json) (p : NS → Bool) : Bool :=
  match parseCommand false js with
  | .ok n => p n
  | .error _ => false

theorem readAs_ok {js p} (h : readAs js p = true) : ∃ n, parseCommand false js = .ok n ∧ p n = true := by
  unfold readAs at h
  split at h
  · exact ⟨_, ‹_›, h⟩
  · cases h

/-- A schema in one namespace with forward and backward references, recursion and an enum. -/
def familyDoc : Json := jobj [("fields", .arr [
    jobj [("name", jstr "b"), ("type", jobj [("fields", .arr [
        jobj [("name", jstr "c"), ("type", jstr "D")],
        jobj [("default", .arr []), ("name", jstr "l"), ("type", jobj [("items", jstr "x.D"), ("type", jstr "array")])],
        jobj [("name", jstr "o"), ("type", .arr [jstr "null", jstr "O"])]]),
      ("name", jstr "R"), ("type", jstr "record")])],
    jobj [("name", jstr "a"), ("type", jobj [("name", jstr "D"), ("symbols", .arr [jstr "A", jstr "B"]), ("type", jstr "enum")])]]),
  ("name", jstr "O"), ("namespace", jstr "x"), ("type", jstr "record")]

/-- The conditions of `schema_reparsed_one_namespace`. -/
def oneNamespace (ns : Str) (n : NS) : Bool :=
  n.defs.all fun e => decide (e.2.name.ns = ns) &&
    (match e.2.kind with | .enum _ _ _ => e.2.aliases.isEmpty | _ => true) &&
    primNames.all fun p => decide (p.1 ≠ e.2.name.str)

theorem oneNamespace_all {ns : Str} {n : NS} (h : oneNamespace ns n = true) {q : QName} {d : PDef} (hq : n.find q = some d) :
    d.name.ns = ns ∧ (∀ ss doc dflt, d.kind = .enum ss doc dflt → d.aliases = []) ∧ ∀ p, (d.name.str, p) ∉ primNames := by
  have := List.all_eq_true.1 h _ (NS.find_mem hq)
  simp only [Bool.and_eq_true, decide_eq_true_eq, List.all_eq_true] at this
  refine ⟨this.1.1, fun ss doc dflt hk => ?_, fun p hp => this.2 _ hp rfl⟩
  have h4 := this.1.2
  rw [hk] at h4
  simpa using h4

example : ∃ n d j s, parseCommand false [familyDoc] = .ok n ∧ n.find ⟨"x".toList, "R".toList⟩ = some d ∧
    recordSchema n d = some j ∧ parseSchema j = .ok s ∧ Same ⟨n.env, .ref d.name⟩ s := by
  obtain ⟨n, h1, h2⟩ := readAs_ok (js := [familyDoc]) (p := fun n => oneNamespace "x".toList n &&
    (match n.find ⟨"x".toList, "R".toList⟩ with | some d => (match d.kind with | .record _ _ => true | _ => false) | none => false))
    (by decide +kernel)
  simp only [Bool.and_eq_true] at h2
  obtain ⟨h2, h3⟩ := h2
  split at h3
  · rename_i d hd
    split at h3
    · rename_i fs doc hk
      have hall := fun q d (hq : n.find q = some d) => oneNamespace_all h2 hq
      obtain ⟨j, s, h4, h5, h6⟩ := schema_reparsed_one_namespace h1 "x".toList (fun q d hq => (hall q d hq).1)
        (fun q d ss doc dflt hq hk => (hall q d hq).2.1 ss doc dflt hk) (fun q d p hq => (hall q d hq).2.2 p) hd hk
      exact ⟨n, d, j, s, h1, hd, h4, h5, h6⟩
    · cases h3
  · cases h3

/-- A datum of `x.R` in `familyDoc`. -/
def familyDatum : Datum := .record [.enum 1, .array [.enum 0, .enum 1], .union 0 .null]

/-- The premises of `own_schema_reads` hold for `familyDoc`. -/
example : ∃ n d j s, parseCommand false [familyDoc] = .ok n ∧ n.find ⟨"x".toList, "R".toList⟩ = some d ∧
    recordSchema n d = some j ∧ parseSchema j = .ok s ∧ Suited s s ∧ (∃ prog, compile Orders.id false s s = .ok prog) ∧
    ∃ e, Enc n.env familyDatum (.ref d.name) e := by
  obtain ⟨n, h1, h2⟩ := readAs_ok (js := [familyDoc]) (p := fun n =>
    match n.find ⟨"x".toList, "R".toList⟩ with
    | some d => match recordSchema n d with
      | some j => match parseSchema j with
        | .ok s => suitedB s s && (compileFuel 100 Orders.id false s s).isOk && (encode n.env familyDatum (.ref d.name)).isSome
        | .error _ => false
      | none => false
    | none => false) (by decide +kernel)
  split at h2
  · rename_i d hd
    split at h2
    · rename_i j hj
      split at h2
      · rename_i s hs
        simp only [Bool.and_eq_true, Option.isSome_iff_exists] at h2
        obtain ⟨⟨h3, h4⟩, e, h5⟩ := h2
        exact ⟨n, d, j, s, h1, hd, hj, hs, suited_of h3, compiles_of h4, e, encode_enc h5⟩
      · cases h2
    · cases h2
  · cases h2

/-- An outcome of parsing. -/
def refused : Except PErr Schema → Bool
  | .ok _ => false
  | .error _ => true

theorem refused_of {x : Except PErr Schema} (h : refused x = true) : ∃ e, x = .error e := by
  cases x with
  | ok _ => cases h
  | error e => exact ⟨e, rfl⟩

/-- `x.O` has a field of the enum `D` (which is `x.D`, by the namespace around it) and a field of the
record `y.R`, whose two fields have the type `x.D`. -/
def twoNamespaces : Json := jobj [("fields", .arr [
    jobj [("name", jstr "a"), ("type", jobj [("name", jstr "D"), ("symbols", .arr [jstr "A", jstr "B"]), ("type", jstr "enum")])],
    jobj [("name", jstr "b"), ("type", jobj [("fields", .arr [
        jobj [("name", jstr "c"), ("type", jstr "x.D")],
        jobj [("name", jstr "d"), ("type", jstr "x.D")]]),
      ("name", jstr "y.R"), ("type", jstr "record")])]]),
  ("name", jstr "x.O"), ("type", jstr "record")]

/-- The schema the generated type for `y.R` carries is refused by the parser, so the type's
`Deserialize` functions always fail: the text of `D` is moved into `y.R`, where it defines `y.D`, and
the second field mentions `x.D`. -/
theorem schema_refused : ∃ n d j e, parseCommand false [twoNamespaces] = .ok n ∧
    n.find ⟨"y".toList, "R".toList⟩ = some d ∧ recordSchema n d = some j ∧ parseSchema j = .error e := by
  obtain ⟨n, h1, h2⟩ := readAs_ok (js := [twoNamespaces]) (p := fun n =>
    match n.find ⟨"y".toList, "R".toList⟩ with
    | some d => match recordSchema n d with
      | some j => refused (parseSchema j)
      | none => false
    | none => false) (by decide +kernel)
  split at h2
  · rename_i d hd
    split at h2
    · rename_i j hj
      obtain ⟨e, he⟩ := refused_of h2
      exact ⟨n, d, j, e, h1, hd, hj, he⟩
    · cases h2
  · cases h2

/-- The same with one field of type `x.D`. -/
def movedEnum : Json := jobj [("fields", .arr [
    jobj [("name", jstr "a"), ("type", jobj [("name", jstr "D"), ("symbols", .arr [jstr "A", jstr "B"]), ("type", jstr "enum")])],
    jobj [("name", jstr "b"), ("type", jobj [("fields", .arr [jobj [("name", jstr "c"), ("type", jstr "x.D")]]),
      ("name", jstr "y.R"), ("type", jstr "record")])]]),
  ("name", jstr "x.O"), ("type", jstr "record")]

/-- Now the schema is accepted, but the enum has become `y.D`: the canonical form of the schema the
type carries is not that of the type, and neither is the fingerprint. -/
theorem schema_renames : ∃ n d j s, parseCommand false [movedEnum] = .ok n ∧
    n.find ⟨"y".toList, "R".toList⟩ = some d ∧ recordSchema n d = some j ∧ parseSchema j = .ok s ∧
    s.env.find ⟨"x".toList, "D".toList⟩ = none ∧ (∃ e, s.env.find ⟨"y".toList, "D".toList⟩ = some e) ∧
    canonicalText s ≠ canonicalText ⟨n.env, .ref d.name⟩ ∧
    recordFingerprint s ≠ recordFingerprint ⟨n.env, .ref d.name⟩ := by
  obtain ⟨n, h1, h2⟩ := readAs_ok (js := [movedEnum]) (p := fun n =>
    match n.find ⟨"y".toList, "R".toList⟩ with
    | some d => match recordSchema n d with
      | some j => match parseSchema j with
        | .ok s => (s.env.find ⟨"x".toList, "D".toList⟩).isNone && (s.env.find ⟨"y".toList, "D".toList⟩).isSome &&
          decide (canonicalText s ≠ canonicalText ⟨n.env, .ref d.name⟩) &&
          decide (recordFingerprint s ≠ recordFingerprint ⟨n.env, .ref d.name⟩)
        | .error _ => false
      | none => false
    | none => false) (by decide +kernel)
  split at h2
  · rename_i d hd
    split at h2
    · rename_i j hj
      split at h2
      · rename_i s hs
        simp only [Bool.and_eq_true, decide_eq_true_eq, Option.isNone_iff_eq_none, Option.isSome_iff_exists] at h2
        exact ⟨n, d, j, s, h1, hd, hj, hs, h2.1.1.1, h2.1.1.2, h2.1.2, h2.2⟩
      · cases h2
    · cases h2
  · cases h2

/-- A union within the namespace `x`, of an enum and a record that mentions it. -/
def unionWithin : Json := jobj [("fields", .arr [
    jobj [("name", jstr "u"), ("type", .arr [
      jobj [("name", jstr "D"), ("symbols", .arr [jstr "A"]), ("type", jstr "enum")],
      jobj [("fields", .arr [jobj [("name", jstr "f"), ("type", jstr "D")]]), ("name", jstr "S"), ("namespace", jstr "x"),
        ("type", jstr "record")]])]]),
  ("name", jstr "x.O"), ("type", jstr "record")]

/-- The members of the union that is the type of the first field. -/
def firstUnion (d : PDef) : Option (List PTy) :=
  match d.kind with
  | .record (f :: _) _ => match f.ty with
    | .union _ ts _ => some ts
    | _ => none
  | _ => none

/-- The schema the generated union type carries is refused by the parser: written outside the
namespace `x`, its first member defines `D`, and the second mentions `x.D`. -/
theorem union_schema_refused : ∃ n d ts j e, parseCommand false [unionWithin] = .ok n ∧
    n.find ⟨"x".toList, "O".toList⟩ = some d ∧ firstUnion d = some ts ∧
    unionSchema n ts = some j ∧ parseSchema j = .error e := by
  obtain ⟨n, h1, h2⟩ := readAs_ok (js := [unionWithin]) (p := fun n =>
    match n.find ⟨"x".toList, "O".toList⟩ with
    | some d => match firstUnion d with
      | some ts => match unionSchema n ts with
        | some j => refused (parseSchema j)
        | none => false
      | none => false
    | none => false) (by decide +kernel)
  split at h2
  · rename_i d hd
    split at h2
    · rename_i ts hts
      split at h2
      · rename_i j hj
        obtain ⟨e, he⟩ := refused_of h2
        exact ⟨n, d, ts, j, e, h1, hd, hts, hj, he⟩
      · cases h2
    · cases h2
  · cases h2

/-- A fixed called `int`, known also as `F`, with two fields of that type. -/
def fixedInt : Json := jobj [("fields", .arr [
    jobj [("name", jstr "a"), ("type", jobj [("aliases", .arr [jstr "F"]), ("name", jstr "int"), ("size", .num 2), ("type", jstr "fixed")])],
    jobj [("name", jstr "b"), ("type", jstr "F")]]),
  ("name", jstr "R"), ("type", jstr "record")]

/-- The types of the fields of a record. -/
def fieldTypes (s : Schema) (q : QName) : List (Str × Bool) :=
  match s.env.find q with
  | some d => match d.kind with
    | .record fs => fs.map fun f => (f.name, match f.ty with | .int => true | _ => false)
    | _ => []
  | none => []

/-- In the schema the type carries, the second field is an int. -/
theorem schema_changes_type : ∃ n d j s, parseCommand false [fixedInt] = .ok n ∧
    n.find ⟨[], "R".toList⟩ = some d ∧ recordSchema n d = some j ∧ parseSchema j = .ok s ∧
    fieldTypes ⟨n.env, .ref d.name⟩ d.name = [("a".toList, false), ("b".toList, false)] ∧
    fieldTypes s d.name = [("a".toList, false), ("b".toList, true)] := by
  obtain ⟨n, h1, h2⟩ := readAs_ok (js := [fixedInt]) (p := fun n =>
    match n.find ⟨[], "R".toList⟩ with
    | some d => match recordSchema n d with
      | some j => match parseSchema j with
        | .ok s => decide (fieldTypes ⟨n.env, .ref d.name⟩ d.name = [("a".toList, false), ("b".toList, false)]) &&
          decide (fieldTypes s d.name = [("a".toList, false), ("b".toList, true)])
        | .error _ => false
      | none => false
    | none => false) (by decide +kernel)
  split at h2
  · rename_i d hd
    split at h2
    · rename_i j hj
      split at h2
      · rename_i s hs
        simp only [Bool.and_eq_true, decide_eq_true_eq] at h2
        exact ⟨n, d, j, s, h1, hd, hj, hs, h2.1, h2.2⟩
      · cases h2
    · cases h2
  · cases h2

end Verif.Props
