import Verif.Gen.Document
import Verif.Gen.TwinPair
import Verif.Props.Compiler
import Verif.Props.Written
import Verif.Props.WellCheck
/-
C77: from schema documents to data and back. The command reads schema documents and generates types;
values of a generated record are written by its `Serialize` method and read by its `Deserialize`
function, which compiles the schema the type itself carries.
-/
namespace Verif.Props
open Verif Spec

variable {short : Bool} {js : List Json} {n : NS}

/-- Definitions read by the command have one name each. -/
theorem command_names (h : parseCommand short js = .ok n) : NamesOK n.env := by
  obtain ⟨ds, h1, -, -⟩ := command_holds h
  intro q q' d d' hd hd' hn
  rw [env_find, Option.map_eq_some_iff] at hd hd'
  obtain ⟨p, hp, rfl⟩ := hd
  obtain ⟨p', hp', rfl⟩ := hd'
  have hn : p.name = p'.name := hn
  rw [h1.compatible.2 p ((h1.find _ _).1 hp).1 p' ((h1.find _ _).1 hp').1 p.name (.inl rfl) (.inl hn)]

/-- What they mention is defined. -/
theorem command_closed (h : parseCommand short js = .ok n) : ∀ q d fs f q', n.env.find q = some d → d.kind = .record fs →
    f ∈ fs → TyMentions f.ty q' → ∃ d', n.env.find q' = some d' := by
  obtain ⟨ds, h1, -, h3⟩ := command_holds h
  intro q d fs f q' hq hk hf hm
  rw [env_find, Option.map_eq_some_iff] at hq
  obtain ⟨p, hp, rfl⟩ := hq
  simp only [PDef.erase] at hk
  split at hk
  · rename_i fs' doc hpk
    cases hk
    obtain ⟨f', hf', rfl⟩ := List.mem_map.1 hf
    obtain ⟨d', h4, -⟩ := h3 p ((h1.find _ _).1 hp).1 fs' doc hpk f' hf' q' (mentions_erase _ _ hm)
    exact ⟨d'.erase, by rw [env_find, h4]; rfl⟩
  · cases hk
  · cases hk

/-- The definitions the command has read make, with one of their records, a schema for which the
properties of data hold. -/
theorem document_wellFormed (h : parseCommand short js = .ok n) (hr : Regular n.env) {q : QName} {d : PDef} (hq : n.find q = some d)
    {fs doc} (hk : d.kind = .record fs doc) : WellFormed ⟨n.env, .ref d.name⟩ := by
  obtain ⟨ds, h1, -, -⟩ := command_holds h
  have hown : n.find d.name = some d := (h1.find _ _).2 ⟨((h1.find _ _).1 hq).1, .inl rfl⟩
  exact hr.wellFormed (command_names h) (command_closed h) (q := d.name) (d := d.erase) (fs := fs.map PField.erase) rfl
    (by rw [env_find, hown]; rfl) (by simp [PDef.erase, hk])

/-- What the definitions of a parsed schema mention is defined. -/
theorem parse_closed (j : Json) (s : Schema) (h : parseSchema j = .ok s) : ∀ q d fs f q', s.env.find q = some d →
    d.kind = .record fs → f ∈ fs → TyMentions f.ty q' → ∃ d', s.env.find q' = some d' := by
  obtain ⟨t, ds, h1, h2, h3, h4, h5⟩ := parse_means j s h
  intro q d fs f q' hd hk hf hm
  obtain ⟨p, hp, -, rfl⟩ := (h5 _ _).1 hd
  simp only [PDef.erase] at hk
  split at hk
  · rename_i fs' doc hpk
    cases hk
    obtain ⟨f', hf', rfl⟩ := List.mem_map.1 hf
    obtain ⟨d', h6, h7⟩ := h3.2 p hp fs' doc hpk f' hf' q' (mentions_erase _ _ hm)
    exact ⟨d'.erase, (h5 q' _).2 ⟨d', h6, h7, rfl⟩⟩
  · cases hk
  · cases hk

/-- The schema that the generated type for a record carries: accepted, of the same meaning as the
definition, and made of copies of the definitions. -/
theorem document_copy (h : parseCommand short js = .ok n) (hr : Regular n.env) {q : QName} {d : PDef} (hq : n.find q = some d)
    {fs doc} (hk : d.kind = .record fs doc) (hm : ∀ e, Leads n.find d e → FieldsMovable n.find e) :
    ∃ j s, recordSchema n d = some j ∧ parseSchema j = .ok s ∧ Same ⟨n.env, .ref d.name⟩ s ∧ WellFormed s ∧
      Copied n.env (.ref d.name) s := by
  obtain ⟨ds, h1, h2, h3⟩ := command_holds h
  obtain ⟨h4, -⟩ := (h1.find q d).1 hq
  obtain ⟨j, hj⟩ := schema_written h hq hk
  have hP : AllMovable n (Leads n.find d) := by
    refine ⟨fun e he => h2 e (leads_mem h1 h4 he), fun e he fs doc hk f hf q hq => ?_⟩
    obtain ⟨e', h5, -⟩ := h3 e (leads_mem h1 h4 he) fs doc hk f hf q hq
    exact ⟨e', h5, .field he hk hf hq h5, hm e he fs doc hk f hf q hq e' h5⟩
  obtain ⟨s, h5, h6, h7⟩ := recordSchema_same h1 hP h4 .self hk hj
  refine ⟨j, s, hj, h5, h6, ?_, h7⟩
  obtain ⟨h8, h9⟩ := h7.regular (command_names h) hr (fun q d hq => by
      rw [env_find, Option.map_eq_some_iff] at hq
      obtain ⟨p, hp, rfl⟩ := hq
      have : n.find p.name = some p := (h1.find _ _).2 ⟨((h1.find _ _).1 hp).1, .inl rfl⟩
      show n.env.find p.name = _
      rw [env_find, this]; rfl) (command_closed h) (parse_closed j s h5)
  have hown : n.env.find d.name = some d.erase := by
    rw [env_find, (h1.find _ _).2 ⟨h4, .inl rfl⟩]; rfl
  have hroot : s.root = .ref d.name := by
    rw [h7.root]; simp only [Ty.norm, hown]; rfl
  obtain ⟨d', hd'⟩ := parse_resolved j s h5 d.name (.root (by rw [hroot]; exact .ref))
  obtain ⟨d0, b1, rfl⟩ := h7.defs _ _ hd'
  rw [hown] at b1
  cases b1
  exact h8.wellFormed h9 (parse_closed j s h5) hroot hd' (by simp [PDef.erase, Def.norm, hk]; rfl)

variable {R : Type} {σ : Setting R} {view : R → List Byte}

/-- A value of a generated record that the record's `Serialize` wrote is returned by its `Deserialize`
function, whatever follows it. -/
theorem document_roundtrip_partial (h : parseCommand short js = .ok n) (hr : Regular n.env) {q : QName} {d : PDef}
    (hq : n.find q = some d) {fs doc} (hk : d.kind = .record fs doc)
    (hm : ∀ e, Leads n.find d e → FieldsMovable n.find e)
    (hd : σ.ro.Delivers view) (hl : σ.lim < 2 ^ 63) (bw : Bool) (mo : MapOrder) {v : Val}
    (hv : HasTy n.env σ.lim v (.ref d.name)) :
    ∃ j s, recordSchema n d = some j ∧ parseSchema j = .ok s ∧ (serialize n.env bw mo v (.ref d.name)).2 = true ∧
      ∀ (rd : R) (rest : List Byte), view rd = wire ⟨n.env, .ref d.name⟩ bw mo v ++ rest →
        ∃ rd', Deserializes σ s s rd (.value v rd') ∧ view rd' = rest := by
  obtain ⟨j, s, h1, h2, h3, h4, -⟩ := document_copy h hr hq hk hm
  obtain ⟨ds, c1, -, -⟩ := command_holds h
  have hown : n.find d.name = some d := (c1.find _ _).2 ⟨((c1.find _ _).1 hq).1, .inl rfl⟩
  have hb := h3.bisim (command_resolved h hown)
  have hroot : AlikeTy n.env s.env (.ref d.name) s.root ∧
      ∀ q, TyMentions (.ref d.name) q → Reachable ⟨n.env, .ref d.name⟩ q := ⟨h3.root, fun q hq => .root hq⟩
  have hv' := hasTy_twin hb _ _ _ hroot hv
  have hser : serialize n.env bw mo v (.ref d.name) = serialize s.env bw mo v s.root := ser_twin hb bw mo _ _ _ _ hroot
  have hne : v ≠ .nil := by
    rintro rfl
    obtain ⟨ts, h5, -⟩ := hv
    cases h5
  refine ⟨j, s, h1, h2, ?_, fun rd rest hin => ?_⟩
  · obtain ⟨-, -, -, -, -, h6, -⟩ := ser_enc n.env bw mo hl v (.ref d.name) [] hv
    exact h6
  · unfold wire at hin
    dsimp only at hin
    rw [hser] at hin
    exact (roundtrip_partial h4 hd hl bw mo hv' hne hin).2

/-- What `Serialize` writes are data of the definition. -/
theorem document_written {d : PDef} (hl : σ.lim < 2 ^ 63) (bw : Bool) (mo : MapOrder) {v : Val}
    (hv : HasTy n.env σ.lim v (.ref d.name)) :
    ∃ dat, Repr n.env v (.ref d.name) dat ∧ dat.within σ.lim ∧
      Enc n.env dat (.ref d.name) (wire ⟨n.env, .ref d.name⟩ bw mo v) := by
  obtain ⟨dat, e, c1, c2, c3, -, c5⟩ := ser_enc n.env bw mo hl v (.ref d.name) [] hv
  have : wire ⟨n.env, .ref d.name⟩ bw mo v = e := c5
  exact ⟨dat, c1, c3, this ▸ c2⟩

/-- Data of a record of one program (`Serialize` writes such data, see `document_written`), read by
another program, generated from other documents, with the schema that the first one's type carries
(`DeserializeXFromSchema`). If the
reader's definition cannot read the writer's, the call ends in an error; otherwise it gives what
schema resolution between the two definitions gives. `σ.dv` gives the Go values of the defaults of the
schema read, `f.norm` is the field of this schema that comes from the field `f` of the definition. -/
theorem document_evolution_partial {short₁ short₂ : Bool} {js₁ js₂ : List Json} {n₁ n₂ : NS}
    (h₁ : parseCommand short₁ js₁ = .ok n₁) (h₂ : parseCommand short₂ js₂ = .ok n₂)
    (hr₁ : Regular n₁.env) (hr₂ : Regular n₂.env) {q₁ q₂ : QName} {d₁ d₂ : PDef}
    (hq₁ : n₁.find q₁ = some d₁) (hq₂ : n₂.find q₂ = some d₂) {fs₁ doc₁ fs₂ doc₂}
    (hk₁ : d₁.kind = .record fs₁ doc₁) (hk₂ : d₂.kind = .record fs₂ doc₂)
    (hm₁ : ∀ e, Leads n₁.find d₁ e → FieldsMovable n₁.find e) (hm₂ : ∀ e, Leads n₂.find d₂ e → FieldsMovable n₂.find e)
    (hnull : NullsAgree n₁.env n₂.env (.ref d₁.name) (.ref d₂.name)) (hone : OneReader n₁.env n₂.env)
    (hd : σ.ro.Delivers view) (hl : σ.lim < 2 ^ 63) :
    ∃ j₁ s₁ j₂ s₂, recordSchema n₁ d₁ = some j₁ ∧ parseSchema j₁ = .ok s₁ ∧ recordSchema n₂ d₂ = some j₂ ∧
      parseSchema j₂ = .ok s₂ ∧
      (Refused false n₁.env n₂.env (.ref d₁.name) (some (.ref d₂.name)) → ∃ e, compile σ.ord false s₁ s₂ = .error e) ∧
      (¬ Refused false n₁.env n₂.env (.ref d₁.name) (some (.ref d₂.name)) →
        ∀ (dat : Datum) (e rest : List Byte) (rd : R), dat.within σ.lim → Enc n₁.env dat (.ref d₁.name) e →
          view rd = e ++ rest →
          match resolve Datum.skippable (fun f => σ.dv (f.norm n₂.env)) n₁.env n₂.env dat (.ref d₁.name) (.ref d₂.name) with
          | some u => ∃ rd', Deserializes σ s₁ s₂ rd (.value (rootVal u) rd') ∧ view rd' = rest
          | none => Deserializes σ s₁ s₂ rd .failed) := by
  obtain ⟨j₁, s₁, a1, a2, a3, a4, a5⟩ := document_copy h₁ hr₁ hq₁ hk₁ hm₁
  obtain ⟨j₂, s₂, b1, b2, b3, b4, b5⟩ := document_copy h₂ hr₂ hq₂ hk₂ hm₂
  have ownE : ∀ {short : Bool} {js : List Json} {n : NS}, parseCommand short js = .ok n → ∀ q d, n.env.find q = some d →
      n.env.find d.name = some d := by
    intro short js n h q d hq
    obtain ⟨ds, c1, -, -⟩ := command_holds h
    rw [env_find, Option.map_eq_some_iff] at hq
    obtain ⟨p, hp, rfl⟩ := hq
    have : n.find p.name = some p := (c1.find _ _).2 ⟨((c1.find _ _).1 hp).1, .inl rfl⟩
    show n.env.find p.name = _
    rw [env_find, this]; rfl
  have own : ∀ {short : Bool} {js : List Json} {n : NS} {q d}, parseCommand short js = .ok n → n.find q = some d →
      n.find d.name = some d := by
    intro short js n q d h hq
    obtain ⟨ds, c1, -, -⟩ := command_holds h
    exact (c1.find _ _).2 ⟨((c1.find _ _).1 hq).1, .inl rfl⟩
  have cr₁ := command_resolved h₁ (own h₁ hq₁)
  have cr₂ := command_resolved h₂ (own h₂ hq₂)
  have hb₁ := a3.bisim cr₁
  have hb₂ := b3.bisim cr₂
  have root₁ : AlikeTy n₁.env s₁.env (.ref d₁.name) s₁.root ∧
      ∀ q, TyMentions (.ref d₁.name) q → Reachable ⟨n₁.env, .ref d₁.name⟩ q := ⟨a3.root, fun q hq => .root hq⟩
  have root₂ : AlikeTy n₂.env s₂.env (.ref d₂.name) s₂.root ∧
      ∀ q, TyMentions (.ref d₂.name) q → Reachable ⟨n₂.env, .ref d₂.name⟩ q := ⟨b3.root, fun q hq => .root hq⟩
  have hs : Suited s₁ s₂ := {
    namesW := a4.names, namesR := b4.names, sizes := a4.sizes, tidyW := a4.tidyFields, tidyR := b4.tidyFields
    rootW := a4.tidyRoot, rootR := b4.tidyRoot, distinct := a4.distinct, plain := b4.plain, fields := b4.suited.fields
    top := b4.top
    nulls := nullsAgree_twin hb₁ hb₂ hnull root₁ root₂
    one := by
      intro q d q1 q2 r1 r2 fs fs1 fs2 c1 c2 c3 c4 c5 c6 c7 c8
      obtain ⟨d0, e1, rfl⟩ := a5.defs _ _ c1
      obtain ⟨r10, e2, rfl⟩ := b5.defs _ _ c2
      obtain ⟨r20, e3, rfl⟩ := b5.defs _ _ c3
      rw [norm_readable] at c7 c8
      obtain ⟨_, g1, -⟩ := norm_kind c4
      obtain ⟨_, g2, -⟩ := norm_kind c5
      obtain ⟨_, g3, -⟩ := norm_kind c6
      exact hone q d0 q1 q2 r10 r20 _ _ _ e1 e2 e3 g1 g2 g3 c7 c8 }
  refine ⟨j₁, s₁, j₂, s₂, a1, a2, b1, b2, fun hx => ?_, fun hx => ?_⟩
  · exact (refused_iff hs σ.ord).2 (refused_twin hb₁ hb₂ hx root₁ root₂)
  · have hc : ∃ prog, compile σ.ord false s₁ s₂ = .ok prog := by
      cases hcc : compile σ.ord false s₁ s₂ with
      | ok prog => exact ⟨prog, rfl⟩
      | error e =>
        exact absurd (refused_twin hb₁.flip hb₂.flip ((refused_iff hs σ.ord).1 ⟨e, hcc⟩) root₁ (r' := some (.ref d₂.name)) root₂) hx
    obtain ⟨prog, hc⟩ := hc
    intro dat e rest rd c3 c2 hin
    have e2 : n₂.env.find d₂.name = some d₂.erase := by rw [env_find, own h₂ hq₂]; rfl
    have hroot : s₂.root = .ref d₂.name := by rw [b5.root]; simp only [Ty.norm, e2]; rfl
    have hcopy : CopyOf n₂.env s₂.env (.ref d₂.name) s₂.root := by
      refine ⟨b5.root, fun q hq => ?_⟩
      cases hq
      obtain ⟨d', hd'⟩ := parse_resolved j₂ s₂ b2 d₂.name (.root (by rw [hroot]; exact .ref))
      refine ⟨_, d', e2, hd', ?_⟩
      obtain ⟨d0, e3, rfl⟩ := b5.defs _ _ hd'
      rw [e2] at e3; cases e3; rfl
    have h3 := resolve_twin (drop := Datum.skippable) (dv := fun f => σ.dv (f.norm n₂.env)) (dv' := σ.dv) hb₁
      (b5.bisim (ownE h₂) (command_closed h₂) (parse_closed j₂ s₂ b2)) (fun f f' h _ => by rw [fieldTwin_copy h])
      dat _ _ _ _ root₁ hcopy
    rw [h3]
    exact resolution_partial hs hd hl hc c3 ((same_encodings a3 cr₁ dat e).1 c2) hin

/-! ### Concrete documents -/

def sortedB {α : Type} : List (List Byte × α) → Bool
  | [] => true
  | e :: es => (es.all fun x => keyLt e.1 x.1) && sortedB es

theorem sorted_of {α : Type} : ∀ (es : List (List Byte × α)), sortedB es = true → Sorted es
  | [], _ => .nil
  | e :: es, h => by
    simp only [sortedB, Bool.and_eq_true] at h
    exact .cons (fun x hx => List.all_eq_true.1 h.1 x hx) (sorted_of es h.2)

mutual
/-- A check for `HasTy`. -/
def hasTyB (env : Env) (lim : Nat) : Val → Ty → Bool
  | .null, t => t.isNull
  | .bool _, .bool => true
  | .int _, .int => true
  | .long _, .long => true
  | .float _, .float => true
  | .double _, .double => true
  | .bytes x, .bytes => decide (x.length ≤ 2147483647)
  | .string x, .string => decide (x.length ≤ 2147483647)
  | .enum v, .ref q => match env.find q with
    | some d => match d.kind with
      | .enum ss _ => decide (0 ≤ v.toInt) && decide (v.toInt < ss.length)
      | _ => false
    | none => false
  | .fixed x, .ref q => match env.find q with
    | some d => match d.kind with
      | .fixed size => decide (size = x.length)
      | _ => false
    | none => false
  | .array vs, .array t => decide (vs.length ≤ lim) && allHaveTyB env lim vs t
  | .map es, .map t => decide (es.length ≤ lim) && sortedB es && entriesHaveTyB env lim es t
  | .nil, .union ts => (Ty.union ts).nullable && decide (ts.length < 2 ^ 63)
  | .union tag (some v), .union ts => match ts[tag.toNat]? with
    | some u => decide (ts.length < 2 ^ 63) && !u.isNull && hasTyB env lim v u
    | none => false
  | .record vs, .ref q => match env.find q with
    | some d => match d.kind with
      | .record fs => fieldsHaveTyB env lim vs fs
      | _ => false
    | none => false
  | _, _ => false
def allHaveTyB (env : Env) (lim : Nat) : List Val → Ty → Bool
  | [], _ => true
  | v :: vs, t => hasTyB env lim v t && allHaveTyB env lim vs t
def entriesHaveTyB (env : Env) (lim : Nat) : List (List Byte × Val) → Ty → Bool
  | [], _ => true
  | (k, v) :: es, t => decide (k.length ≤ 2147483647) && hasTyB env lim v t && entriesHaveTyB env lim es t
def fieldsHaveTyB (env : Env) (lim : Nat) : List Val → List Field → Bool
  | [], fs => fs.isEmpty
  | _ :: _, [] => false
  | v :: vs, f :: fs => hasTyB env lim v f.ty && fieldsHaveTyB env lim vs fs
end

mutual
theorem hasTy_of {env : Env} {lim : Nat} : ∀ (v : Val) (t : Ty), hasTyB env lim v t = true → HasTy env lim v t
  | .null, t, h => by cases t <;> simp_all [hasTyB, HasTy, Ty.isNull]
  | .bool _, t, h => by cases t <;> simp_all [hasTyB, HasTy]
  | .int _, t, h => by cases t <;> simp_all [hasTyB, HasTy]
  | .long _, t, h => by cases t <;> simp_all [hasTyB, HasTy]
  | .float _, t, h => by cases t <;> simp_all [hasTyB, HasTy]
  | .double _, t, h => by cases t <;> simp_all [hasTyB, HasTy]
  | .bytes _, t, h => by cases t <;> simp_all [hasTyB, HasTy]
  | .string _, t, h => by cases t <;> simp_all [hasTyB, HasTy]
  | .fixed x, t, h => by
    cases t with
    | ref q =>
      simp only [hasTyB] at h
      split at h
      · rename_i d hd
        split at h
        · rename_i size hk
          rw [decide_eq_true_eq] at h
          exact ⟨q, d, rfl, hd, h ▸ hk⟩
        · cases h
      · cases h
    | _ => simp [hasTyB] at h
  | .enum v, t, h => by
    cases t with
    | ref q =>
      simp only [hasTyB] at h
      split at h
      · rename_i d hd
        split at h
        · rename_i ss x hk
          simp only [Bool.and_eq_true, decide_eq_true_eq] at h
          exact ⟨q, d, ss, x, rfl, hd, hk, h.1, h.2⟩
        · cases h
      · cases h
    | _ => simp [hasTyB] at h
  | .array vs, t, h => by
    cases t with
    | array t =>
      simp only [hasTyB, Bool.and_eq_true, decide_eq_true_eq] at h
      exact ⟨t, rfl, h.1, allHaveTy_of vs t h.2⟩
    | _ => simp [hasTyB] at h
  | .map es, t, h => by
    cases t with
    | map t =>
      simp only [hasTyB, Bool.and_eq_true, decide_eq_true_eq] at h
      exact ⟨t, rfl, h.1.1, sorted_of es h.1.2, entriesHaveTy_of es t h.2⟩
    | _ => simp [hasTyB] at h
  | .nil, t, h => by
    cases t with
    | union ts =>
      simp only [hasTyB, Bool.and_eq_true, decide_eq_true_eq] at h
      exact ⟨ts, rfl, h.1, h.2⟩
    | _ => simp [hasTyB] at h
  | .union _ none, t, h => by cases t <;> simp [hasTyB] at h
  | .union tag (some v), t, h => by
    cases t with
    | union ts =>
      simp only [hasTyB] at h
      split at h
      · rename_i u hu
        simp only [Bool.and_eq_true, decide_eq_true_eq, Bool.not_eq_true'] at h
        exact ⟨ts, u, rfl, hu, h.1.1, h.1.2, hasTy_of v u h.2⟩
      · cases h
    | _ => simp [hasTyB] at h
  | .record vs, t, h => by
    cases t with
    | ref q =>
      simp only [hasTyB] at h
      split at h
      · rename_i d hd
        split at h
        · rename_i fs hk
          exact ⟨q, d, fs, rfl, hd, hk, fieldsHaveTy_of vs fs h⟩
        · cases h
      · cases h
    | _ => simp [hasTyB] at h
theorem allHaveTy_of {env : Env} {lim : Nat} : ∀ (vs : List Val) (t : Ty), allHaveTyB env lim vs t = true → AllHaveTy env lim vs t
  | [], _, _ => trivial
  | v :: vs, t, h => by
    simp only [allHaveTyB, Bool.and_eq_true] at h
    exact ⟨hasTy_of v t h.1, allHaveTy_of vs t h.2⟩
theorem entriesHaveTy_of {env : Env} {lim : Nat} : ∀ (es : List (List Byte × Val)) (t : Ty), entriesHaveTyB env lim es t = true →
    EntriesHaveTy env lim es t
  | [], _, _ => trivial
  | (k, v) :: es, t, h => by
    simp only [entriesHaveTyB, Bool.and_eq_true, decide_eq_true_eq] at h
    exact ⟨h.1.1, hasTy_of v t h.1.2, entriesHaveTy_of es t h.2⟩
theorem fieldsHaveTy_of {env : Env} {lim : Nat} : ∀ (vs : List Val) (fs : List Field), fieldsHaveTyB env lim vs fs = true →
    FieldsHaveTy env lim vs fs
  | [], [], _ => rfl
  | [], _ :: _, h => by simp [fieldsHaveTyB] at h
  | _ :: _, [], h => by simp [fieldsHaveTyB] at h
  | v :: vs, f :: fs, h => by
    simp only [fieldsHaveTyB, Bool.and_eq_true] at h
    exact ⟨f, fs, rfl, hasTy_of v f.ty h.1, fieldsHaveTy_of vs fs h.2⟩
end

mutual
theorem unionsOK_of {env : Env} : ∀ t : Ty, t.Closed env → t.UnionsOK env
  | .null, _ => trivial
  | .bool, _ => trivial
  | .int, _ => trivial
  | .long, _ => trivial
  | .float, _ => trivial
  | .double, _ => trivial
  | .bytes, _ => trivial
  | .string, _ => trivial
  | .array t, h => unionsOK_of t h
  | .map t, h => unionsOK_of t h
  | .union ts, h => ⟨h.1, h.2.1, allUnionsOK_of ts h.2.2⟩
  | .ref _, _ => trivial
theorem allUnionsOK_of {env : Env} : ∀ ts : List Ty, Ty.AllClosed env ts → Ty.AllUnionsOK env ts
  | [], _ => trivial
  | t :: ts, h => ⟨unionsOK_of t h.1, allUnionsOK_of ts h.2⟩
end

/-- The definitions of a well-formed schema are regular. -/
theorem regular_of {s : Schema} (h : WellFormed s) : Regular s.env where
  sizes := h.sizes
  apart := h.apart
  symbols := h.symbols
  unions := fun q d fs f hq hk hf => unionsOK_of _ (h.closedFields q d fs f hq hk hf)
  tidy := h.tidyFields
  grounded := h.grounded
  distinct := h.distinct
  aliases := h.aliases
  plain := h.plain

/-- The definition with this name is a record. -/
def isRecordB (n : NS) (q : QName) : Bool := match n.find q with
  | some d => decide (d.name = q) && (match d.kind with
    | .record _ _ => true
    | _ => false)
  | none => false

theorem isRecord_of {n : NS} {q : QName} (h : isRecordB n q = true) :
    ∃ d fs doc, n.find q = some d ∧ d.name = q ∧ d.kind = .record fs doc := by
  unfold isRecordB at h
  split at h
  · rename_i d hd
    simp only [Bool.and_eq_true, decide_eq_true_eq] at h
    obtain ⟨h1, h2⟩ := h
    split at h2
    · exact ⟨d, _, _, hd, h1, ‹_›⟩
    · cases h2
  · cases h

def qFam : QName := ⟨"x".toList, "R".toList⟩

/-- The rank that shows that no record contains itself directly. -/
def famRank (q : QName) : Nat := if q.name = "O".toList then 2 else if q.name = "R".toList then 1 else 0

/-- A value of `x.R`: the enum, a list of enums, and another pair of records in the union. -/
def famVal : Val := .record [.enum 1, .array [.enum 0, .enum 1],
  .union 1 (some (.record [.record [.enum 0, .array [], .nil], .enum 1]))]

/-- What `document_roundtrip_partial` asks of the documents. -/
def documentB (q : QName) (n : NS) : Bool :=
  oneNamespace "x".toList n && isRecordB n q && wellFormedB ⟨n.env, .ref q⟩ famRank

theorem document_of {js : List Json} {n : NS} {q : QName} (h : parseCommand false js = .ok n) (hb : documentB q n = true) :
    Regular n.env ∧ ∃ d fs doc, n.find q = some d ∧ d.name = q ∧ d.kind = .record fs doc ∧
      ∀ e, Leads n.find d e → FieldsMovable n.find e := by
  simp only [documentB, Bool.and_eq_true] at hb
  obtain ⟨⟨h1, h2⟩, h3⟩ := hb
  obtain ⟨d, fs, doc, h4, h5, h6⟩ := isRecord_of h2
  exact ⟨regular_of (wellFormed_of famRank h3), d, fs, doc, h4, h5, h6,
    movable_one_namespace h _ (fun q d hq => (oneNamespace_all h1 hq).1)
      (fun q d ss doc dflt hq hk => (oneNamespace_all h1 hq).2.1 ss doc dflt hk)
      (fun q d p hq => (oneNamespace_all h1 hq).2.2 p) h4⟩

/-- `x.R` of `familyDoc`: the schema its type carries contains `x.O`, which contains `x.R`. -/
example : ∃ n d j s, parseCommand false [familyDoc] = .ok n ∧ n.find qFam = some d ∧ recordSchema n d = some j ∧
    parseSchema j = .ok s ∧ ∃ rd', Deserializes (demo false) s s [wire ⟨n.env, .ref qFam⟩ true .id famVal, [7]] (.value famVal rd') ∧
      rd'.flatten = [7] := by
  obtain ⟨n, h1, h2⟩ := readAs_ok (js := [familyDoc]) (p := fun n => documentB qFam n && hasTyB n.env 1000 famVal (.ref qFam))
    (by decide +kernel)
  simp only [Bool.and_eq_true] at h2
  obtain ⟨h3, d, fs, doc, h4, h5, h6, h7⟩ := document_of h1 h2.1
  obtain ⟨j, s, h8, h9, -, h10⟩ := document_roundtrip_partial (σ := demo false) (view := List.flatten) h1 h3 h4 h6 h7
    (demo_delivers false) (by show 1000 < 2 ^ 63; decide) true .id (v := famVal) (by rw [h5]; exact hasTy_of _ _ h2.2)
  obtain ⟨rd', h11, h12⟩ := h10 [wire ⟨n.env, .ref qFam⟩ true .id famVal, [7]] [7] (by rw [h5]; simp)
  exact ⟨n, d, j, s, h1, h4, h8, h9, rd', h11, h12⟩

/-- A later version: `x.R` has gained a field with a default, `x.O` has lost one, and the fields of `x.R`
and the symbols of the enum are in another order. -/
def familyLater : Json := jobj [("fields", .arr [
    jobj [("default", .num 7), ("name", jstr "k"), ("type", jstr "int")],
    jobj [("name", jstr "o"), ("type", .arr [jstr "null", jobj [
      ("fields", .arr [jobj [("name", jstr "b"), ("type", jstr "R")]]),
      ("name", jstr "O"), ("type", jstr "record")]])],
    jobj [("name", jstr "c"), ("type", jobj [("name", jstr "D"), ("symbols", .arr [jstr "B", jstr "A"]), ("type", jstr "enum")])],
    jobj [("name", jstr "l"), ("type", jobj [("items", jstr "D"), ("type", jstr "array")])]]),
  ("name", jstr "R"), ("namespace", jstr "x"), ("type", jstr "record")]

/-- What is on the wire, and what the later version makes of it. -/
def famDatum : Datum := .record [.enum 1, .array [.enum 0, .enum 1],
  .union 1 (.record [.record [.enum 0, .array [], .union 0 .null], .enum 1])]
def famLaterVal : Val := .record [.int 7, .union 1 (some (.record [.record [.int 7, .nil, .enum 1, .array []]])), .enum 0,
  .array [.enum 1, .enum 0]]

theorem readAs_both {js₁ js₂ : List Json} {p : NS → NS → Bool} (h : readAs js₁ (fun n₁ => readAs js₂ (p n₁)) = true) :
    ∃ n₁ n₂, parseCommand false js₁ = .ok n₁ ∧ parseCommand false js₂ = .ok n₂ ∧ p n₁ n₂ = true := by
  obtain ⟨n₁, h1, h2⟩ := readAs_ok h
  obtain ⟨n₂, h3, h4⟩ := readAs_ok h2
  exact ⟨n₁, n₂, h1, h3, h4⟩

def resolvesTo (o : Option Val) (v : Val) : Bool := match o with
  | some u => valEq u v
  | none => false

theorem resolvesTo_eq {o : Option Val} {v : Val} (h : resolvesTo o v = true) : o = some v := by
  unfold resolvesTo at h
  split at h
  · rw [valEq_eq h]
  · cases h

/-- The premises of `document_evolution_partial`, and what it gives, for `familyDoc` and `familyLater`. -/
example : ∃ n₁ n₂ j₁ j₂ d₁ d₂ s₁ s₂, parseCommand false [familyDoc] = .ok n₁ ∧ parseCommand false [familyLater] = .ok n₂ ∧
    n₁.find qFam = some d₁ ∧ n₂.find qFam = some d₂ ∧ recordSchema n₁ d₁ = some j₁ ∧ parseSchema j₁ = .ok s₁ ∧
    recordSchema n₂ d₂ = some j₂ ∧ parseSchema j₂ = .ok s₂ ∧ ∃ e, Enc n₁.env famDatum (.ref qFam) e ∧
      ∃ rd', Deserializes (demo false) s₁ s₂ [e, [7]] (.value famLaterVal rd') ∧ rd'.flatten = [7] := by
  obtain ⟨n₁, n₂, h1, h2, h3⟩ := readAs_both (js₁ := [familyDoc]) (js₂ := [familyLater]) (p := fun n₁ n₂ =>
    documentB qFam n₁ && documentB qFam n₂ && suitedB ⟨n₁.env, .ref qFam⟩ ⟨n₂.env, .ref qFam⟩ &&
    (compileFuel 100 Orders.id false ⟨n₁.env, .ref qFam⟩ ⟨n₂.env, .ref qFam⟩).isOk &&
    (encode n₁.env famDatum (.ref qFam)).isSome &&
    resolvesTo (resolve Datum.skippable (fun _ => .int 7) n₁.env n₂.env famDatum (.ref qFam) (.ref qFam)) famLaterVal)
    (by decide +kernel)
  simp only [Bool.and_eq_true, Option.isSome_iff_exists] at h3
  obtain ⟨⟨⟨⟨⟨a1, a2⟩, a3⟩, a4⟩, e, a5⟩, a6⟩ := h3
  obtain ⟨b1, d₁, fs₁, doc₁, b2, b3, b4, b5⟩ := document_of h1 a1
  obtain ⟨c1, d₂, fs₂, doc₂, c2, c3, c4, c5⟩ := document_of h2 a2
  have hs := suited_of a3
  obtain ⟨j₁, s₁, j₂, s₂, g1, g2, g3, g4, -, g5⟩ := document_evolution_partial (σ := demo false) (view := List.flatten) h1 h2 b1 c1 b2 c2
    b4 c4 b5 c5 (by rw [b3, c3]; exact hs.nulls) hs.one (demo_delivers false) (by show 1000 < 2 ^ 63; decide)
  have hno : ¬ Refused false n₁.env n₂.env (.ref d₁.name) (some (.ref d₂.name)) := by
    rw [b3, c3]
    intro hx
    obtain ⟨prog, hp⟩ := compiles_of a4
    obtain ⟨e, he⟩ := (refused_iff hs Orders.id).2 hx
    rw [hp] at he; cases he
  have g6 := g5 hno famDatum e [7] [e, [7]] (within_of (by decide)) (by rw [b3]; exact encode_enc a5) (by simp)
  rw [b3, c3, show (fun f : Field => (demo false).dv (f.norm n₂.env)) = fun _ => .int 7 from rfl, resolvesTo_eq a6] at g6
  exact ⟨n₁, n₂, j₁, j₂, d₁, d₂, s₁, s₂, h1, h2, b2, c2, g1, g2, g3, g4, e, encode_enc a5, g6⟩
end Verif.Props
