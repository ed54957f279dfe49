import Verif.Gen.WellFormed
import Verif.Gen.Twin
import Verif.Parser.Reread
/-
Schemas that were parsed are well formed, if the definitions are regular; and so is the schema that a
generated type carries.
-/
set_option linter.unusedSimpArgs false
set_option linter.unusedVariables false
namespace Verif
open Spec

mutual
/-- The unions within a type have members, which have different Go names. -/
def Ty.UnionsOK (env : Env) : Ty → Prop
  | .array t => t.UnionsOK env
  | .map t => t.UnionsOK env
  | .union ts => ts ≠ [] ∧ (ts.map (Ty.goName env)).Nodup ∧ Ty.AllUnionsOK env ts
  | _ => True
def Ty.AllUnionsOK (env : Env) : List Ty → Prop
  | [] => True
  | t :: ts => t.UnionsOK env ∧ Ty.AllUnionsOK env ts
end

/-- Conditions on the definitions of schema documents that the parser does not check. -/
structure Regular (env : Env) : Prop where
  /-- sizes of fixeds are not negative -/
  sizes : SizesOK env
  /-- the names and aliases of a record's fields are different -/
  apart : FieldsApart env
  /-- the symbols of an enum are different -/
  symbols : SymbolsApart env
  /-- unions have members, all different -/
  unions : ∀ q d fs f, env.find q = some d → d.kind = .record fs → f ∈ fs → f.ty.UnionsOK env
  /-- no unions directly in unions -/
  tidy : TidyFields env
  /-- no record contains itself directly -/
  grounded : Grounded env
  /-- different records have different Go names -/
  distinct : GoNamesDistinct env
  /-- no record has the name of another among its aliases -/
  aliases : OneReader env env
  /-- no definition is called `Int`, `String`, ... -/
  plain : PlainNames env

mutual
theorem closed_of (env : Env) : ∀ t : Ty, t.UnionsOK env → (∀ q, TyMentions t q → ∃ d, env.find q = some d) → t.Closed env
  | .null, _, _ => trivial
  | .bool, _, _ => trivial
  | .int, _, _ => trivial
  | .long, _, _ => trivial
  | .float, _, _ => trivial
  | .double, _, _ => trivial
  | .bytes, _, _ => trivial
  | .string, _, _ => trivial
  | .array t, h, hm => closed_of env t h fun q hq => hm q (.array hq)
  | .map t, h, hm => closed_of env t h fun q hq => hm q (.map hq)
  | .union ts, h, hm => ⟨h.1, h.2.1, allClosed_of env ts h.2.2 fun t ht q hq => hm q (.union ht hq)⟩
  | .ref q, _, hm => hm q .ref
theorem allClosed_of (env : Env) : ∀ ts : List Ty, Ty.AllUnionsOK env ts →
    (∀ t ∈ ts, ∀ q, TyMentions t q → ∃ d, env.find q = some d) → Ty.AllClosed env ts
  | [], _, _ => trivial
  | t :: ts, h, hm => ⟨closed_of env t h.1 (hm t (by simp)), allClosed_of env ts h.2 fun u hu => hm u (by simp [hu])⟩
end

/-- Definitions that are regular and closed, with a record at the root. -/
theorem Regular.wellFormed {s : Schema} (h : Regular s.env) (hn : NamesOK s.env)
    (hc : ∀ q d fs f q', s.env.find q = some d → d.kind = .record fs → f ∈ fs → TyMentions f.ty q' → ∃ d', s.env.find q' = some d')
    {q d fs} (hr : s.root = .ref q) (hq : s.env.find q = some d) (hk : d.kind = .record fs) : WellFormed s where
  names := hn
  sizes := h.sizes
  apart := h.apart
  symbols := h.symbols
  closedFields := fun q d fs f hq hk hf => closed_of _ _ (h.unions q d fs f hq hk hf) fun q' hq' => hc q d fs f q' hq hk hf hq'
  closedRoot := by rw [hr]; exact ⟨d, hq⟩
  grounded := h.grounded
  top := .inl ⟨q, d, fs, hr, hq, hk⟩
  tidyFields := h.tidy
  tidyRoot := by rw [hr]; rfl
  distinct := h.distinct
  aliases := h.aliases
  plain := h.plain

/-! ### the copy -/

section
variable {e : Env} {s : Schema}

theorem norms_eq (e : Env) : ∀ ts, Ty.norms e ts = ts.map (Ty.norm e)
  | [] => rfl
  | t :: ts => by simp only [Ty.norms, List.map_cons, norms_eq e ts]

/-- What a normalised type mentions is found in the copy under the same name. -/
def Kept (e e' : Env) (t : Ty) : Prop :=
  ∀ q, TyMentions t q → ∃ d d', e.find q = some d ∧ e'.find d.name = some d' ∧ d'.name = d.name

mutual
theorem goName_norm {e e' : Env} : ∀ t : Ty, Kept e e' t → (t.norm e).goName e' = t.goName e
  | .null, _ => rfl
  | .bool, _ => rfl
  | .int, _ => rfl
  | .long, _ => rfl
  | .float, _ => rfl
  | .double, _ => rfl
  | .bytes, _ => rfl
  | .string, _ => rfl
  | .array t, h => by simp only [Ty.norm, Ty.goName, goName_norm t fun q hq => h q (.array hq)]
  | .map t, h => by simp only [Ty.norm, Ty.goName, goName_norm t fun q hq => h q (.map hq)]
  | .union ts, h => by simp only [Ty.norm, Ty.goName, goNames_norm ts fun t ht q hq => h q (.union ht hq)]
  | .ref q, h => by
    obtain ⟨d, d', h1, h2, h3⟩ := h q .ref
    simp only [Ty.norm, h1, Ty.goName, h2, Def.goName, h3]
theorem goNames_norm {e e' : Env} : ∀ ts : List Ty, (∀ t ∈ ts, Kept e e' t) → Ty.goNames e' (Ty.norms e ts) = Ty.goNames e ts
  | [], _ => rfl
  | t :: ts, h => by
    simp only [Ty.norms, Ty.goNames, goName_norm t (h t (by simp)), goNames_norm ts fun u hu => h u (by simp [hu])]
end

mutual
theorem unionsOK_norm {e e' : Env} : ∀ t : Ty, Kept e e' t → t.UnionsOK e → (t.norm e).UnionsOK e'
  | .null, _, _ => trivial
  | .bool, _, _ => trivial
  | .int, _, _ => trivial
  | .long, _, _ => trivial
  | .float, _, _ => trivial
  | .double, _, _ => trivial
  | .bytes, _, _ => trivial
  | .string, _, _ => trivial
  | .array t, h, hu => unionsOK_norm t (fun q hq => h q (.array hq)) hu
  | .map t, h, hu => unionsOK_norm t (fun q hq => h q (.map hq)) hu
  | .union ts, h, hu => by
    simp only [Ty.norm, Ty.UnionsOK]
    refine ⟨?_, ?_, allUnionsOK_norm ts (fun t ht q hq => h q (.union ht hq)) hu.2.2⟩
    · rw [norms_eq]; simpa using hu.1
    · have : (Ty.norms e ts).map (Ty.goName e') = ts.map (Ty.goName e) := by
        rw [norms_eq, List.map_map]
        exact List.map_congr_left fun t ht => goName_norm t fun q hq => h q (.union ht hq)
      rw [this]; exact hu.2.1
  | .ref q, h, _ => by
    obtain ⟨d, d', h1, h2, h3⟩ := h q .ref
    simp only [Ty.norm, h1]
    trivial
theorem allUnionsOK_norm {e e' : Env} : ∀ ts : List Ty, (∀ t ∈ ts, Kept e e' t) → Ty.AllUnionsOK e ts → Ty.AllUnionsOK e' (Ty.norms e ts)
  | [], _, _ => trivial
  | t :: ts, h, hu => ⟨unionsOK_norm t (h t (by simp)) hu.1, allUnionsOK_norm ts (fun u hu => h u (by simp [hu])) hu.2⟩
end

theorem isUnion_norm (e : Env) (t : Ty) : (t.norm e).isUnion = t.isUnion := by
  cases t <;> try rfl
  simp only [Ty.norm]
  split <;> rfl

mutual
theorem tidy_norm (e : Env) : ∀ t : Ty, (t.norm e).tidy = t.tidy
  | .null => rfl
  | .bool => rfl
  | .int => rfl
  | .long => rfl
  | .float => rfl
  | .double => rfl
  | .bytes => rfl
  | .string => rfl
  | .array t => tidy_norm e t
  | .map t => tidy_norm e t
  | .union ts => tidyMembers_norm e ts
  | .ref q => by simp only [Ty.norm]; split <;> rfl
theorem tidyMembers_norm (e : Env) : ∀ ts : List Ty, Ty.tidyMembers (Ty.norms e ts) = Ty.tidyMembers ts
  | [] => rfl
  | t :: ts => by simp only [Ty.norms, Ty.tidyMembers, tidy_norm e t, tidyMembers_norm e ts, isUnion_norm]
end

theorem norm_kind {e : Env} {d : Def} {fs : List Field} (h : (d.norm e).kind = .record fs) :
    ∃ fs0, d.kind = .record fs0 ∧ fs = fs0.map (Field.norm e) := by
  unfold Def.norm at h
  dsimp only at h
  cases hk : d.kind with
  | record fs0 => rw [hk] at h; exact ⟨fs0, rfl, by cases h; rfl⟩
  | enum ss x => rw [hk] at h; cases h
  | fixed k => rw [hk] at h; cases h

theorem norm_name (e : Env) (d : Def) : (d.norm e).name = d.name := rfl
theorem norm_aliases (e : Env) (d : Def) : (d.norm e).aliases = d.aliases := rfl

theorem exists_least {S : Nat → Prop} : ∀ k, S k → ∃ m, S m ∧ ∀ j, S j → m ≤ j := by
  intro k
  induction k using Nat.strongRecOn with
  | _ k ih =>
    intro hk
    by_cases h : ∃ j, j < k ∧ S j
    · obtain ⟨j, h1, h2⟩ := h
      exact ih j h1 h2
    · exact ⟨k, hk, fun j hj => Nat.le_of_not_lt fun hlt => h ⟨j, hlt, hj⟩⟩

/-- Ranks by name: the least rank among the names of a definition. -/
theorem grounded_names {e : Env} (hn : NamesOK e) (h : Grounded e) : ∃ rank : QName → Nat, ∀ q d fs, e.find q = some d →
    d.kind = .record fs → ∀ f ∈ fs, ∀ q' d', f.ty = .ref q' → e.find q' = some d' → rank d'.name < rank d.name := by
  obtain ⟨rank, h⟩ := h
  classical
  let S : QName → Nat → Prop := fun m k => ∃ q d, e.find q = some d ∧ d.name = m ∧ rank q = k
  have hex : ∀ m, ∃ r, (∃ k, S m k) → S m r ∧ ∀ j, S m j → r ≤ j := by
    intro m
    by_cases hm : ∃ k, S m k
    · obtain ⟨k, hk⟩ := hm
      obtain ⟨r, h1, h2⟩ := exists_least k hk
      exact ⟨r, fun _ => ⟨h1, h2⟩⟩
    · exact ⟨0, fun h => absurd h hm⟩
  refine ⟨fun m => (hex m).choose, fun q d fs hq hk f hf q' d' ht hq' => ?_⟩
  obtain ⟨⟨q0, d0, a1, a2, a3⟩, -⟩ := (hex d.name).choose_spec ⟨rank q, q, d, hq, rfl, rfl⟩
  have hd0 := hn q0 q d0 d a1 hq a2
  subst hd0
  obtain ⟨-, b⟩ := (hex d'.name).choose_spec ⟨rank q', q', d', hq', rfl, rfl⟩
  have h1 := b (rank q') ⟨q', d', hq', rfl, rfl⟩
  have h2 := h q0 d0 fs a1 hk f hf q' ht
  show (hex d'.name).choose < (hex d0.name).choose
  omega

theorem norm_enum {e : Env} {d : Def} {ss x} (h : (d.norm e).kind = .enum ss x) : d.kind = .enum ss x := by
  unfold Def.norm at h
  dsimp only at h
  cases hk : d.kind with
  | record fs0 => rw [hk] at h; cases h
  | enum ss x => rw [hk] at h; exact h
  | fixed k => rw [hk] at h; cases h

theorem norm_fixed {e : Env} {d : Def} {k} (h : (d.norm e).kind = .fixed k) : d.kind = .fixed k := by
  unfold Def.norm at h
  dsimp only at h
  cases hk : d.kind with
  | record fs0 => rw [hk] at h; cases h
  | enum ss x => rw [hk] at h; cases h
  | fixed k => rw [hk] at h; exact h

theorem norm_readable (e e' : Env) (d r : Def) : (d.norm e).readableBy (r.norm e') = d.readableBy r := by
  obtain ⟨n, a, k⟩ := d
  obtain ⟨n', a', k'⟩ := r
  cases k <;> cases k' <;> rfl

theorem norm_ref {e : Env} {t : Ty} {q : QName} (h : t.norm e = .ref q) :
    ∃ q0, t = .ref q0 ∧ ∀ d, e.find q0 = some d → q = d.name := by
  cases t with
  | ref q0 =>
    refine ⟨q0, rfl, fun d hd => ?_⟩
    simp only [Ty.norm, hd, Ty.ref.injEq] at h
    exact h.symm
  | _ => cases h

/-- A copy of regular definitions is regular. `hcl`: what its fields mention is in it. -/
theorem Copied.regular {t : Ty} (hc : Copied e t s) (hn : NamesOK e) (h : Regular e)
    (hown : ∀ q d, e.find q = some d → e.find d.name = some d)
    (hce : ∀ q d fs f q', e.find q = some d → d.kind = .record fs → f ∈ fs → TyMentions f.ty q' → ∃ d', e.find q' = some d')
    (hcl : ∀ q d fs f q', s.env.find q = some d → d.kind = .record fs → f ∈ fs → TyMentions f.ty q' → ∃ d', s.env.find q' = some d') :
    Regular s.env ∧ NamesOK s.env := by
  have hname : ∀ q d', s.env.find q = some d' → ∃ d, e.find q = some d ∧ d' = d.norm e := hc.defs
  have hget : ∀ {fs0 : List Field} {i : Nat} {f : Field}, (fs0.map (Field.norm e))[i]? = some f →
      ∃ f0, fs0[i]? = some f0 ∧ f = f0.norm e := by
    intro fs0 i f hf
    rw [List.getElem?_map, Option.map_eq_some_iff] at hf
    obtain ⟨f0, h1, h2⟩ := hf
    exact ⟨f0, h1, h2.symm⟩
  have hkept : ∀ q d' fs f, s.env.find q = some (d' : Def) → d'.kind = .record fs → f ∈ fs → ∀ d fs0 f0, e.find q = some d →
      d.kind = .record fs0 → f0 ∈ fs0 → f = f0.norm e → Kept e s.env f0.ty := by
    intro q d' fs f h1 h2 h3 d fs0 f0 h4 h5 h6 h7 q' hq'
    obtain ⟨d1, h8⟩ := hce q d fs0 f0 q' h4 h5 h6 hq'
    have h9 : TyMentions f.ty d1.name := by rw [h7]; exact norm_mentions h8 _ hq'
    obtain ⟨d2, h10⟩ := hcl q d' fs f _ h1 h2 h3 h9
    refine ⟨d1, d2, h8, h10, ?_⟩
    obtain ⟨d3, h11, rfl⟩ := hname _ _ h10
    rw [hown _ _ h8] at h11
    cases h11
    rfl
  refine ⟨⟨?_, ?_, ?_, ?_, ?_, ?_, ?_, ?_, ?_⟩, ?_⟩
  · intro q d k hq hk
    obtain ⟨d0, h1, rfl⟩ := hname q d hq
    exact h.sizes q d0 k h1 (norm_fixed hk)
  · intro q d fs hq hk i j f g hi hj hfg
    obtain ⟨d0, h1, rfl⟩ := hname q d hq
    obtain ⟨fs0, h2, rfl⟩ := norm_kind hk
    obtain ⟨f0, h3, rfl⟩ := hget hi
    obtain ⟨g0, h4, rfl⟩ := hget hj
    exact h.apart q d0 fs0 h1 h2 i j f0 g0 h3 h4 hfg
  · intro q d ss x hq hk
    obtain ⟨d0, h1, rfl⟩ := hname q d hq
    exact h.symbols q d0 ss x h1 (norm_enum hk)
  · intro q d fs f hq hk hf
    have hd := hq
    obtain ⟨d0, h1, rfl⟩ := hname q d hq
    obtain ⟨fs0, h2, rfl⟩ := norm_kind hk
    have hf' := hf
    obtain ⟨f0, h3, rfl⟩ := List.mem_map.1 hf
    exact unionsOK_norm _ (hkept q _ _ _ hd hk hf' d0 fs0 f0 h1 h2 h3 rfl) (h.unions q d0 fs0 f0 h1 h2 h3)
  · intro q d fs f hq hk hf
    obtain ⟨d0, h1, rfl⟩ := hname q d hq
    obtain ⟨fs0, h2, rfl⟩ := norm_kind hk
    obtain ⟨f0, h3, rfl⟩ := List.mem_map.1 hf
    exact (tidy_norm e f0.ty).trans (h.tidy q d0 fs0 f0 h1 h2 h3)
  · obtain ⟨rank, hr⟩ := grounded_names hn h.grounded
    refine ⟨fun q => match e.find q with | some d => rank d.name | none => 0, fun q d fs hq hk f hf q' ht => ?_⟩
    obtain ⟨d0, h1, rfl⟩ := hname q d hq
    obtain ⟨fs0, h2, rfl⟩ := norm_kind hk
    obtain ⟨f0, h3, rfl⟩ := List.mem_map.1 hf
    obtain ⟨q0, h4, h5⟩ := norm_ref ht
    obtain ⟨d1, h6⟩ := hce q d0 fs0 f0 q0 h1 h2 h3 (by rw [h4]; exact .ref)
    have := h5 _ h6
    subst this
    simp only [h1, hown _ _ h6]
    exact hr q d0 fs0 h1 h2 f0 h3 q0 d1 h4 h6
  · intro q q' d d' fs fs' hq hq' hk hk' hg
    obtain ⟨d0, h1, rfl⟩ := hname q d hq
    obtain ⟨d1, h2, rfl⟩ := hname q' d' hq'
    obtain ⟨fs0, h3, rfl⟩ := norm_kind hk
    obtain ⟨fs1, h4, rfl⟩ := norm_kind hk'
    exact h.distinct q q' d0 d1 fs0 fs1 h1 h2 h3 h4 hg
  · intro q d q1 q2 r1 r2 fs fs1 fs2 hq hq1 hq2 hk hk1 hk2 hr1 hr2
    obtain ⟨d0, h1, rfl⟩ := hname q d hq
    obtain ⟨d1, h2, rfl⟩ := hname q1 r1 hq1
    obtain ⟨d2, h3, rfl⟩ := hname q2 r2 hq2
    obtain ⟨fs0, h4, rfl⟩ := norm_kind hk
    obtain ⟨fs1, h5, rfl⟩ := norm_kind hk1
    obtain ⟨fs2, h6, rfl⟩ := norm_kind hk2
    rw [norm_readable] at hr1 hr2
    exact h.aliases q d0 q1 q2 d1 d2 fs0 fs1 fs2 h1 h2 h3 h4 h5 h6 hr1 hr2
  · intro q d hq
    obtain ⟨d0, h1, rfl⟩ := hname q d hq
    exact h.plain q d0 h1
  · intro q q' d d' hq hq' hnm
    obtain ⟨d0, h1, rfl⟩ := hname q d hq
    obtain ⟨d1, h2, rfl⟩ := hname q' d' hq'
    rw [hn q q' d0 d1 h1 h2 hnm]

/-- Types and their copies. -/
def CopyOf (e e' : Env) (t t' : Ty) : Prop := t' = t.norm e ∧ Kept e e' t

theorem copyOf_each {e e' : Env} : ∀ ts : List Ty, (∀ t ∈ ts, Kept e e' t) → Each (CopyOf e e') ts (Ty.norms e ts)
  | [], _ => .nil
  | t :: ts, h => .cons ⟨rfl, h t (by simp)⟩ (copyOf_each ts fun u hu => h u (by simp [hu]))

theorem fieldTwin_norm {e e' : Env} : ∀ fs : List Field, (∀ f ∈ fs, Kept e e' f.ty) →
    Each (FieldTwin (CopyOf e e')) fs (fs.map (Field.norm e))
  | [], _ => .nil
  | f :: fs, h => .cons ⟨rfl, rfl, rfl, rfl, h f (by simp)⟩ (fieldTwin_norm fs fun u hu => h u (by simp [hu]))

theorem Copied.bisim {t : Ty} (hc : Copied e t s) (hown : ∀ q d, e.find q = some d → e.find d.name = some d)
    (hce : ∀ q d fs f q', e.find q = some d → d.kind = .record fs → f ∈ fs → TyMentions f.ty q' → ∃ d', e.find q' = some d')
    (hcl : ∀ q d fs f q', s.env.find q = some d → d.kind = .record fs → f ∈ fs → TyMentions f.ty q' → ∃ d', s.env.find q' = some d') :
    Bisim e s.env (CopyOf e s.env) := by
  rintro t t' ⟨rfl, hk⟩
  cases t with
  | array t => exact .array ⟨rfl, fun q hq => hk q (.array hq)⟩
  | map t => exact .map ⟨rfl, fun q hq => hk q (.map hq)⟩
  | union ts => exact .union (copyOf_each ts fun t ht q hq => hk q (.union ht hq))
  | ref q =>
    obtain ⟨d, d', h1, h2, h3⟩ := hk q .ref
    obtain ⟨d0, h4, rfl⟩ := hc.defs _ _ h2
    rw [hown _ _ h1] at h4
    cases h4
    simp only [Ty.norm, h1]
    refine .ref h1 h2 rfl rfl ?_
    cases hkd : d.kind with
    | record fs =>
      have hkn : (d.norm e).kind = .record (fs.map (Field.norm e)) := by simp [Def.norm, hkd]
      rw [hkn]
      refine .record (fieldTwin_norm fs fun f hf q' hq' => ?_)
      obtain ⟨d1, h5⟩ := hce q d fs f q' h1 hkd hf hq'
      obtain ⟨d2, h6⟩ := hcl _ _ _ (f.norm e) d1.name h2 hkn (List.mem_map_of_mem hf) (norm_mentions h5 _ hq')
      refine ⟨d1, d2, h5, h6, ?_⟩
      obtain ⟨d3, h7, rfl⟩ := hc.defs _ _ h6
      rw [hown _ _ h5] at h7
      cases h7
      rfl
    | enum ss x => simp only [Def.norm, hkd]; exact .enum
    | fixed k => simp only [Def.norm, hkd]; exact .fixed
  | _ => exact .prim (by simp [Ty.norm, primitives])

theorem fieldTwin_copy {e e' : Env} {f f' : Field} (h : FieldTwin (CopyOf e e') f f') : f' = f.norm e := by
  obtain ⟨n, a, t, d⟩ := f
  obtain ⟨n', a', t', d'⟩ := f'
  obtain ⟨h1, h2, h3, h4, -⟩ := h
  cases h1; cases h2; cases h3; cases h4; rfl
end
end Verif
