import Verif.Parser.WriteProof
import Verif.Canonical.FormProof
import Verif.Props.Parser
/-
`Schema()` has a result, and parsing it gives the same schema.
-/
set_option linter.unusedSimpArgs false
set_option linter.unusedVariables false
namespace Verif
open Spec

/-! ### the result exists -/

/-- Definitions that have not been written. -/
def unwritten (n : NS) (scope : List QName) : Nat := (n.defs.filter fun x => x.2.name ∉ scope).length

theorem unwritten_le {n : NS} {scope scope' : List QName} (h : ∀ x ∈ scope, x ∈ scope') :
    unwritten n scope' ≤ unwritten n scope := by
  apply filter_length_le
  intro x hx
  simp only [decide_eq_true_eq] at hx ⊢
  exact fun hv => hx (h _ hv)

theorem lookup_mem {α β : Type} [DecidableEq α] {q : α} {d : β} : ∀ {l : List (α × β)}, l.lookup q = some d → (q, d) ∈ l
  | [], h => by simp at h
  | (q', d') :: l, h => by
    simp only [List.lookup] at h
    split at h
    · rename_i he
      have : q = q' := by simpa using he
      subst this; cases h; simp
    · exact List.mem_cons_of_mem _ (lookup_mem h)

theorem NS.find_mem {n : NS} {q d} (h : n.find q = some d) : (q, d) ∈ n.defs := lookup_mem h

theorem unwritten_lt {n : NS} {scope : List QName} {q d} (hq : n.find q = some d) (h : d.name ∉ scope) :
    unwritten n (d.name :: scope) < unwritten n scope := by
  apply filter_length_lt (a := (q, d))
  · intro x hx
    simp only [decide_eq_true_eq, List.mem_cons, not_or] at hx ⊢
    exact hx.2
  · exact NS.find_mem hq
  · simp
  · simpa using h

/-- A set of definitions that keep their texts and that contains what their fields mention. -/
structure ClosedDefs (n : NS) (P : PDef → Prop) : Prop where
  sourced : ∀ d, P d → d.Sourced
  fields : ∀ d, P d → ∀ fs doc, d.kind = .record fs doc → ∀ f ∈ fs, ∀ q, Mentions f.ty q →
    ∃ d', n.find q = some d' ∧ P d'

theorem AllMovable.closedDefs {n P} (h : AllMovable n P) : ClosedDefs n P :=
  ⟨h.sourced, fun d hd fs doc hk f hf q hq => by
    obtain ⟨d', h1, h2, -⟩ := h.fields d hd fs doc hk f hf q hq
    exact ⟨d', h1, h2⟩⟩

theorem erases_mem {t : PTy} : ∀ {ts : List PTy}, t ∈ ts → t.erase ∈ PTy.erases ts
  | [], h => by simp at h
  | u :: ts, h => by
    rcases List.mem_cons.1 h with rfl | h
    · simp [PTy.erases]
    · simp only [PTy.erases, List.mem_cons]; exact .inr (erases_mem h)

theorem allSourced_mem {t : PTy} : ∀ {ts : List PTy}, PTy.AllSourced ts → t ∈ ts → t.Sourced
  | [], _, h => by simp at h
  | u :: ts, hs, h => by
    rcases List.mem_cons.1 h with rfl | h
    · exact hs.1
    · exact allSourced_mem hs.2 h

theorem writeMembers_exists {f : Writing} {n : NS} {k : Nat}
    (ts : List PTy) (hf : ∀ t ∈ ts, ∀ scope, unwritten n scope ≤ k → ∃ j scope', f t scope = some (j, scope') ∧ ∀ x ∈ scope, x ∈ scope') :
    ∀ scope, unwritten n scope ≤ k → ∃ js scope', writeMembers f ts scope = some (js, scope') ∧ ∀ x ∈ scope, x ∈ scope' := by
  induction ts with
  | nil => intro scope _; exact ⟨[], scope, rfl, fun x hx => hx⟩
  | cons t ts ih =>
    intro scope hk
    obtain ⟨j, s1, h1, h2⟩ := hf t (by simp) scope hk
    obtain ⟨js, s2, h3, h4⟩ := ih (fun u hu => hf u (by simp [hu])) s1 (Nat.le_trans (unwritten_le h2) hk)
    exact ⟨j :: js, s2, by simp only [writeMembers, h1, h3], fun x hx => h4 x (h2 x hx)⟩

theorem writeFields_exists {f : Writing} {n : NS} {k : Nat}
    (ts : List PField) (hf : ∀ t ∈ ts, ∀ scope, unwritten n scope ≤ k → ∃ j scope', f t.ty scope = some (j, scope') ∧ ∀ x ∈ scope, x ∈ scope') :
    ∀ scope, unwritten n scope ≤ k → ∃ js scope', writeFields f ts scope = some (js, scope') ∧ ∀ x ∈ scope, x ∈ scope' := by
  induction ts with
  | nil => intro scope _; exact ⟨[], scope, rfl, fun x hx => hx⟩
  | cons t ts ih =>
    intro scope hk
    obtain ⟨j, s1, h1, h2⟩ := hf t (by simp) scope hk
    obtain ⟨js, s2, h3, h4⟩ := ih (fun u hu => hf u (by simp [hu])) s1 (Nat.le_trans (unwritten_le h2) hk)
    exact ⟨_, s2, by simp only [writeFields, h1, h3]; rfl, fun x hx => h4 x (h2 x hx)⟩

theorem writeDef_exists {n : NS} {f : Writing} {k : Nat} {q d} (hq : n.find q = some d)
    (hf : ∀ fs doc, d.kind = .record fs doc → ∀ x ∈ fs, ∀ scope, unwritten n scope + 1 ≤ k →
      ∃ j scope', f x.ty scope = some (j, scope') ∧ ∀ x ∈ scope, x ∈ scope') (scope : List QName) (hk : unwritten n scope ≤ k) :
    ∃ j scope', writeDef f d scope = some (j, scope') ∧ ∀ x ∈ scope, x ∈ scope' := by
  unfold writeDef
  by_cases hs : d.name ∈ scope
  · rw [if_pos hs]; exact ⟨_, _, rfl, fun x hx => hx⟩
  rw [if_neg hs]
  cases hkd : d.kind with
  | enum ss doc dflt => exact ⟨_, _, rfl, fun x hx => by simp [hx]⟩
  | fixed size => exact ⟨_, _, rfl, fun x hx => by simp [hx]⟩
  | record fs doc =>
    have hlt := unwritten_lt hq hs
    obtain ⟨k', rfl⟩ : ∃ k', k = k' + 1 := ⟨k - 1, by omega⟩
    obtain ⟨js, s1, h1, h2⟩ := writeFields_exists (f := f) (n := n) (k := k') fs (fun x hx scope h => hf fs doc hkd x hx scope (by omega))
      (d.name :: scope) (by omega)
    dsimp only
    rw [h1]
    exact ⟨_, _, rfl, fun x hx => h2 x (by simp [hx])⟩

theorem writeTy_exists {n : NS} {P : PDef → Prop} (hP : ClosedDefs n P) {M : Nat} (hM : FieldsLe n.env M) :
    ∀ m k t scope, unwritten n scope ≤ k → t.erase.size + k * (M + 1) ≤ m → t.Sourced →
      (∀ q, Mentions t q → ∃ d, n.find q = some d ∧ P d) →
      ∃ j scope', writeTy n m t scope = some (j, scope') ∧ ∀ x ∈ scope, x ∈ scope' := by
  intro m
  induction m with
  | zero =>
    intro k t scope _ hn
    have : 0 < t.erase.size := by cases t.erase <;> simp [Ty.size]
    omega
  | succ m ih =>
    intro k t scope hk hn hs hm
    cases t with
    | prim p j => exact ⟨_, scope, by simp only [writeTy]; rfl, fun x hx => hx⟩
    | array t j =>
      obtain ⟨hs1, o, rfl, ho⟩ := hs
      simp only [PTy.erase, Ty.size] at hn
      obtain ⟨j, s1, h1, h2⟩ := ih k t scope hk (by omega) hs1 (fun q hq => hm q (.array hq))
      exact ⟨_, s1, by simp only [writeTy, h1]; rfl, h2⟩
    | map t j =>
      obtain ⟨hs1, o, rfl, ho⟩ := hs
      simp only [PTy.erase, Ty.size] at hn
      obtain ⟨j, s1, h1, h2⟩ := ih k t scope hk (by omega) hs1 (fun q hq => hm q (.map hq))
      exact ⟨_, s1, by simp only [writeTy, h1]; rfl, h2⟩
    | union nm ts js =>
      simp only [PTy.erase, Ty.size] at hn
      obtain ⟨js, s1, h1, h2⟩ := writeMembers_exists (f := writeTy n m) (n := n) (k := k) ts (fun t ht scope hk => by
        have := size_mem (erases_mem ht)
        exact ih k t scope hk (by omega) (allSourced_mem hs ht) (fun q hq => hm q (.union ht hq))) scope hk
      exact ⟨_, s1, by simp only [writeTy, h1]; rfl, h2⟩
    | ref q =>
      simp only [PTy.erase, Ty.size] at hn
      obtain ⟨d, hd, hPd⟩ := hm q .ref
      simp only [writeTy, hd]
      refine writeDef_exists hd (fun fs doc hkd x hx scope hsc => ?_) scope hk
      have hs := hM q d.erase (fs.map PField.erase) x.erase (by rw [env_find, hd]; rfl) (by simp [PDef.erase, hkd])
        (List.mem_map_of_mem hx)
      have hs' : x.ty.erase.size ≤ M := hs
      obtain ⟨k', rfl⟩ : ∃ k', k = k' + 1 := ⟨k - 1, by omega⟩
      have : (k' + 1) * (M + 1) = k' * (M + 1) + (M + 1) := Nat.succ_mul _ _
      exact ih k' x.ty scope (by omega) (by omega) (((hP.sourced d hPd).record fs doc hkd).2.1 x hx).ty
        (fun q' hq' => hP.fields d hPd fs doc hkd x hx q' hq')

theorem recordSchema_exists {n : NS} {P : PDef → Prop} (hP : ClosedDefs n P) {d : PDef} {fs doc} (hf : n.find d.name = some d)
    (hd : P d) (hk : d.kind = .record fs doc) : ∃ j, recordSchema n d = some j := by
  have hlen : unwritten n [] ≤ n.env.length := by
    unfold unwritten NS.env
    rw [List.length_map]
    exact List.length_filter_le _ _
  have hM := fieldsLe_fsize n.env
  obtain ⟨j, s1, h1, -⟩ := writeDef_exists (f := writeTy n (writeBound n (.ref d.name))) (k := n.env.length) hf
    (fun fs' doc' hk' x hx scope hsc => by
      have hs := hM d.name d.erase (fs'.map PField.erase) x.erase (by rw [env_find, hf]; rfl) (by simp [PDef.erase, hk'])
        (List.mem_map_of_mem hx)
      have hs' : x.ty.erase.size ≤ n.env.fsize := hs
      obtain ⟨k', hk''⟩ : ∃ k', n.env.length = k' + 1 := ⟨n.env.length - 1, by omega⟩
      have : (k' + 1) * (n.env.fsize + 1) = k' * (n.env.fsize + 1) + (n.env.fsize + 1) := Nat.succ_mul _ _
      refine writeTy_exists hP hM _ k' x.ty scope (by omega) ?_ (((hP.sourced d hd).record fs' doc' hk').2.1 x hx).ty
        (fun q' hq' => hP.fields d hd fs' doc' hk' x hx q' hq')
      unfold writeBound
      rw [hk'']
      omega) [] hlen
  unfold recordSchema
  rw [h1]
  unfold writeDef at h1
  rw [if_neg (by simp)] at h1
  simp only [hk] at h1
  split at h1
  · cases h1
  simp only [Option.some.injEq, Prod.mk.injEq] at h1
  obtain ⟨rfl, rfl⟩ := h1
  exact ⟨_, rfl⟩

/-! ### reading it -/

/-- A document that describes a type and definitions is parsed into them. -/
theorem parse_exactly {j : Json} {t : PTy} {ds : List PDef} (h : Describes false "topLevel".toList [] j t ds)
    (hc : Compatible ds) (hr : Complete t ds) : ∃ s, parseSchema j = .ok s ∧ s.root = t.erase ∧
      ∀ q d, s.env.find q = some d ↔ ∃ p ∈ ds, KnownAs p q ∧ d = p.erase := by
  obtain ⟨s, hs⟩ := Props.parse_accepts j t ds h hc hr
  obtain ⟨t', ds', a1, -, -, a4, a5⟩ := Props.parse_means j s hs
  obtain ⟨rfl, rfl⟩ := describes_unique h a1
  exact ⟨s, hs, a4, a5⟩

mutual
theorem alike_norm {e e' : Env} : ∀ t : Ty, (∀ q, TyMentions t q → ∃ d d', e.find q = some d ∧ e'.find d.name = some d' ∧ d'.name = d.name) →
    AlikeTy e e' t (t.norm e)
  | .null, _ => .prim (by simp [primitives])
  | .bool, _ => .prim (by simp [primitives])
  | .int, _ => .prim (by simp [primitives])
  | .long, _ => .prim (by simp [primitives])
  | .float, _ => .prim (by simp [primitives])
  | .double, _ => .prim (by simp [primitives])
  | .bytes, _ => .prim (by simp [primitives])
  | .string, _ => .prim (by simp [primitives])
  | .array t, h => .array (alike_norm t fun q hq => h q (.array hq))
  | .map t, h => .map (alike_norm t fun q hq => h q (.map hq))
  | .union ts, h => .union (alike_norms ts fun t ht q hq => h q (.union ht hq))
  | .ref q, h => by
    obtain ⟨d, d', h1, h2, h3⟩ := h q .ref
    simp only [Ty.norm, h1]
    exact .ref h1 h2 h3.symm
theorem alike_norms {e e' : Env} : ∀ ts : List Ty, (∀ t ∈ ts, ∀ q, TyMentions t q → ∃ d d', e.find q = some d ∧ e'.find d.name = some d' ∧ d'.name = d.name) →
    AlikeTys e e' ts (Ty.norms e ts)
  | [], _ => .nil
  | t :: ts, h => .cons (alike_norm t (h t (by simp))) (alike_norms ts fun u hu => h u (by simp [hu]))
end

theorem names_inj {ds : List PDef} (h : (ds.map PDef.name).Nodup) : ∀ d1 ∈ ds, ∀ d2 ∈ ds, d1.name = d2.name → d1 = d2 := by
  induction ds with
  | nil => intro d1 h; simp at h
  | cons x ds ih =>
    simp only [List.map_cons, List.nodup_cons] at h
    intro d1 h1 d2 h2 e
    rcases List.mem_cons.1 h1 with e1 | h3
    · rcases List.mem_cons.1 h2 with e2 | h4
      · rw [e1, e2]
      · exact absurd (by rw [← e1, e]; exact List.mem_map_of_mem h4) h.1
    · rcases List.mem_cons.1 h2 with e2 | h4
      · exact absurd (by rw [← e2, ← e]; exact List.mem_map_of_mem h3) h.1
      · exact ih h.2 d1 h3 d2 h4 e

mutual
theorem norm_mentions {e : Env} {q : QName} {d : Def} (hd : e.find q = some d) : ∀ t : Ty, TyMentions t q → TyMentions (t.norm e) d.name
  | .null, h => by cases h
  | .bool, h => by cases h
  | .int, h => by cases h
  | .long, h => by cases h
  | .float, h => by cases h
  | .double, h => by cases h
  | .bytes, h => by cases h
  | .string, h => by cases h
  | .array t, h => by cases h; exact .array (norm_mentions hd t (by assumption))
  | .map t, h => by cases h; exact .map (norm_mentions hd t (by assumption))
  | .union ts, h => by
    cases h with
    | union h1 h2 =>
      obtain ⟨t', h3, h5⟩ := norms_mentions hd ts _ h1 h2
      exact .union h3 h5
  | .ref q', h => by
    cases h
    simp only [Ty.norm, hd]
    exact .ref
theorem norms_mentions {e : Env} {q : QName} {d : Def} (hd : e.find q = some d) : ∀ (ts : List Ty) (t : Ty), t ∈ ts → TyMentions t q →
    ∃ t' ∈ Ty.norms e ts, TyMentions t' d.name
  | [], t, h, _ => by simp at h
  | u :: ts, t, ht, h => by
    have h1 := norm_mentions hd u
    have h2 := norms_mentions hd ts
    rcases List.mem_cons.1 ht with rfl | ht
    · exact ⟨_, by simp [Ty.norms], h1 h⟩
    · obtain ⟨t', h3, h5⟩ := h2 t ht h
      exact ⟨t', by simp [Ty.norms, h3], h5⟩
end

theorem sameFields_norm {e e' : Env} : ∀ {fs fs' : List PField},
    fs'.map PField.erase = (fs.map PField.erase).map (Field.norm e) →
    (∀ f ∈ fs, ∀ f' ∈ fs', f'.ty.erase = f.ty.erase.norm e → AlikeTy e e' f.ty.erase f'.ty.erase) →
    SameFields e e' (fs.map PField.erase) (fs'.map PField.erase)
  | [], fs', h, _ => by
    have : fs' = [] := by simpa using h
    subst this; exact .nil
  | f :: fs, [], h, _ => by simp at h
  | f :: fs, f' :: fs', h, ha => by
    simp only [List.map_cons, List.cons.injEq] at h
    obtain ⟨h1, h2⟩ := h
    exact .cons (congrArg Field.name h1).symm (congrArg Field.aliases h1).symm (congrArg Field.dflt h1).symm
      (ha f (by simp) f' (by simp) (congrArg Field.ty h1))
      (sameFields_norm h2 fun x hx y hy => ha x (by simp [hx]) y (by simp [hy]))

/-- The schema consists of definitions of `e`, where names stand for what they mean in `e`. -/
structure Copied (e : Env) (t : Ty) (s : Schema) : Prop where
  root : s.root = t.norm e
  defs : ∀ q d', s.env.find q = some d' → ∃ d, e.find q = some d ∧ d' = d.norm e

/-- What has been written from scratch is accepted and means the same. -/
theorem written_same {n : NS} {ds0 : List PDef} (hn : Holds n ds0) {P : PDef → Prop} (hP : ClosedDefs n P)
    {t t' : PTy} {j : Json} {scope' : List QName} {ds : List PDef}
    (h : Describes false "topLevel".toList [] j t' ds) (ht : t'.erase = t.erase.norm n.env)
    (hm : ∀ q, Mentions t' q → q ∈ scope') (hw : Written n P [] scope' ds)
    (hmt : ∀ q, Mentions t q → ∃ d, n.find q = some d ∧ P d) :
    ∃ s, parseSchema j = .ok s ∧ Same ⟨n.env, t.erase⟩ s ∧ Copied n.env t.erase s := by
  have hsc : ∀ q, q ∈ scope' → ∃ d' ∈ ds, d'.name = q := fun q hq => by simpa using (hw.scope q).1 hq
  have horig : ∀ d' ∈ ds, ∃ d ∈ ds0, n.find d.name = some d ∧ P d ∧ d'.erase = d.erase.norm n.env := by
    intro d' hd'
    obtain ⟨q, d, a1, a2, a3, -⟩ := hw.news d' hd'
    have := ((hn.find q d).1 a1).1
    exact ⟨d, this, (hn.find _ _).2 ⟨this, .inl rfl⟩, a2, a3⟩
  have hname : ∀ {d' d : PDef}, d'.erase = d.erase.norm n.env → d'.name = d.name ∧ d'.aliases = d.aliases := by
    intro d' d e
    exact ⟨congrArg Def.name e, congrArg Def.aliases e⟩
  have hinj : ∀ d1 ∈ ds, ∀ d2 ∈ ds, d1.name = d2.name → d1 = d2 :=
    names_inj hw.nodup
  have hc : Compatible ds := by
    constructor
    · intro d' hd'
      obtain ⟨d, a1, -, -, a4⟩ := horig d' hd'
      rw [(hname a4).1, (hname a4).2]
      exact hn.compatible.1 d a1
    · intro d1 h1 d2 h2 q k1 k2
      obtain ⟨e1, a1, -, -, a4⟩ := horig d1 h1
      obtain ⟨e2, b1, -, -, b4⟩ := horig d2 h2
      unfold KnownAs at k1 k2
      rw [(hname a4).1, (hname a4).2] at k1
      rw [(hname b4).1, (hname b4).2] at k2
      have := hn.compatible.2 e1 a1 e2 b1 q k1 k2
      exact hinj d1 h1 d2 h2 (by rw [(hname a4).1, (hname b4).1, this])
  have hr : Complete t' ds := by
    constructor
    · intro q hq
      obtain ⟨d', h1, h2⟩ := hsc q (hm q hq)
      exact ⟨d', h1, .inl h2.symm⟩
    · intro d hd fs doc hk f hf q hq
      obtain ⟨d', h1, h2⟩ := hsc q (hw.closed d hd fs doc hk f hf q hq)
      exact ⟨d', h1, .inl h2.symm⟩
  obtain ⟨s, hs, hroot, henv⟩ := parse_exactly h hc hr
  -- a definition reached is written
  have hscope : ∀ q, q ∈ scope' → ∃ d', s.env.find q = some d' ∧ d'.name = q := by
    intro q hq
    obtain ⟨d', h1, h2⟩ := hsc q hq
    exact ⟨d'.erase, (henv _ _).2 ⟨d', h1, .inl h2.symm, rfl⟩, h2⟩
  -- names mentioned by a normalised type are written names
  have hmen : ∀ (u u' : PTy), u'.erase = u.erase.norm n.env → (∀ q, Mentions u' q → q ∈ scope') →
      (∀ q, Mentions u q → ∃ d, n.find q = some d ∧ P d) →
      AlikeTy n.env s.env u.erase u'.erase := by
    intro u u' e h1 h2
    rw [e]
    apply alike_norm
    intro q hq
    obtain ⟨d, h3, -⟩ := h2 q (Props.mentions_erase u q hq)
    have h4 : n.env.find q = some d.erase := by rw [env_find, h3]; rfl
    have h5 : TyMentions (u.erase.norm n.env) d.name := norm_mentions h4 _ hq
    rw [← e] at h5
    obtain ⟨d', h6, h7⟩ := hscope _ (h1 _ (Props.mentions_erase u' _ h5))
    exact ⟨d.erase, d', h4, h6, h7⟩
  have hcop : Copied n.env t.erase s := by
    refine ⟨by rw [hroot, ht], fun q d' hd' => ?_⟩
    obtain ⟨p, hp, hk, rfl⟩ := (henv _ _).1 hd'
    obtain ⟨d, a1, a2, a3, a4⟩ := horig p hp
    have : n.find q = some d := (hn.find _ _).2 ⟨a1, by
      unfold KnownAs at hk ⊢
      rwa [(hname a4).1, (hname a4).2] at hk⟩
    exact ⟨d.erase, by rw [env_find, this]; rfl, a4⟩
  refine ⟨s, hs, ⟨?_, ?_⟩, hcop⟩
  · rw [hroot]; exact hmen t t' ht hm hmt
  · intro q hq d hd q' d' hd' hnm
    rw [env_find] at hd
    cases hfd : n.find q with
    | none => rw [hfd] at hd; cases hd
    | some pd =>
      rw [hfd] at hd
      cases hd
      obtain ⟨p, hp, hk, rfl⟩ := (henv _ _).1 hd'
      obtain ⟨d0, a1, a2, a3, a4⟩ := horig p hp
      have e0 : d0.name = pd.name := by
        rw [← (hname a4).1]; exact hnm
      have hpd := ((hn.find q pd).1 hfd).1
      have : d0 = pd := hn.compatible.2 d0 a1 pd hpd d0.name (.inl rfl) (.inl e0)
      subst this
      refine ⟨(hname a4).2, ?_⟩
      have ek : p.erase.kind = (d0.erase.norm n.env).kind := by rw [a4]
      cases hkd : d0.kind with
      | enum ss doc dflt =>
        have : p.erase.kind = .enum ss dflt := by rw [ek]; simp [PDef.erase, Def.norm, hkd]
        rw [this]
        simp only [PDef.erase, hkd]
        exact .enum
      | fixed size =>
        have : p.erase.kind = .fixed size := by rw [ek]; simp [PDef.erase, Def.norm, hkd]
        rw [this]
        simp only [PDef.erase, hkd]
        exact .fixed
      | record fs doc =>
        have hkr : p.erase.kind = .record ((fs.map PField.erase).map (Field.norm n.env)) := by
          rw [ek]; simp [PDef.erase, Def.norm, hkd]
        have hsrc := hP.fields d0 a3 fs doc hkd
        cases hpk : p.kind with
        | enum ss doc dflt => simp [PDef.erase, hpk] at hkr
        | fixed size => simp [PDef.erase, hpk] at hkr
        | record fs' doc' =>
          have hcl := hw.closed p hp fs' doc' hpk
          simp only [PDef.erase, hpk, DefKind.record.injEq] at hkr
          simp only [PDef.erase, hkd, hpk]
          refine .record (sameFields_norm hkr fun f hf f' hf' e => ?_)
          exact hmen f.ty f'.ty e (hcl f' hf') (hsrc f hf)

theorem recordSchema_same {n : NS} {ds0 : List PDef} (hn : Holds n ds0) {P : PDef → Prop} (hP : AllMovable n P)
    {d : PDef} {fs doc} (hd0 : d ∈ ds0) (hd : P d) (hk : d.kind = .record fs doc) {j : Json} (h : recordSchema n d = some j) :
    ∃ s, parseSchema j = .ok s ∧ Same ⟨n.env, .ref d.name⟩ s ∧ Copied n.env (.ref d.name) s := by
  have hf : n.find d.name = some d := (hn.find _ _).2 ⟨hd0, .inl rfl⟩
  unfold recordSchema at h
  split at h
  · rename_i o s1 h1
    cases h
    unfold writeDef at h1
    rw [if_neg (by simp)] at h1
    simp only [hk] at h1
    split at h1
    · cases h1
    rename_i js s2 h2
    simp only [Option.some.injEq, Prod.mk.injEq, Json.obj.injEq] at h1
    obtain ⟨rfl, rfl⟩ := h1
    obtain ⟨c1, c2, c3, c4⟩ := (hP.sourced d hd).record fs doc hk
    have hne : ∀ k : Str, k ≠ "fields".toList → k ≠ "name".toList → k ≠ "namespace".toList →
        (setKey "name".toList (.str d.name.str) (deleteKey "namespace".toList (setKey "fields".toList (.arr js) d.defn))).lookup k =
          d.defn.lookup k := fun k h1 h2 h3 => by
      rw [lookup_setKey_ne h2, lookup_deleteKey_ne h3, lookup_setKey_ne h1]
    obtain ⟨ds, a1, a2, a3⟩ := rereads_record hP (rereads hP _) hf hd hk (by simp) h2 []
      (setKey "name".toList (.str d.name.str) (deleteKey "namespace".toList (setKey "fields".toList (.arr js) d.defn)))
      ((hne _ (by decide) (by decide) (by decide)).trans c1)
      ⟨d.name.str, [], lookup_setKey _ _ _, .inr ⟨by rw [lookup_setKey_ne (by decide), lookup_deleteKey], rfl⟩,
        by rw [if_pos rfl]; exact parseAvroName_iff.1 ((Props.name_reparsed [] d.name (hP.sourced d hd).plain).2 (.inr rfl))⟩
      (by rw [lookup_setKey_ne (by decide), lookup_deleteKey_ne (by decide), lookup_setKey])
      (by
        obtain ⟨ss, b1, b2⟩ := c3
        refine ⟨ss, ?_, b2⟩
        unfold OptStrings at b1 ⊢
        rw [hne _ (by decide) (by decide) (by decide)]; exact b1)
      (by
        unfold OptAttr at c4 ⊢
        rw [hne _ (by decide) (by decide) (by decide)]; exact c4)
      "topLevel".toList
    refine written_same (t := .ref d.name) (t' := .ref d.name) hn hP.closedDefs a1 ?_ ?_ a3 ?_
    · simp only [PTy.erase, Ty.norm, env_find, hf, Option.map_some]; rfl
    · intro q hq; cases hq; exact a2
    · intro q hq; cases hq; exact ⟨d, hf, hd⟩
  · cases h

theorem unionSchema_same {n : NS} {ds0 : List PDef} (hn : Holds n ds0) {P : PDef → Prop} (hP : AllMovable n P)
    {ts : List PTy} (hs : PTy.AllSourced ts)
    (hm : ∀ t ∈ ts, ∀ q, Mentions t q → ∃ d, n.find q = some d ∧ P d ∧ Movable [] d) {j : Json}
    (h : unionSchema n ts = some j) :
    ∃ s, parseSchema j = .ok s ∧ Same ⟨n.env, .union (PTy.erases ts)⟩ s ∧ Copied n.env (.union (PTy.erases ts)) s := by
  unfold unionSchema at h
  rcases hw : writeMembers (writeTy n (n.env.length * (n.env.fsize + 1) + Ty.sizes (PTy.erases ts))) ts [] with _ | ⟨js', s1⟩
  · rw [hw] at h; cases h
  rw [hw] at h
  cases h
  obtain ⟨ts', ds, a1, a2, a3, a4⟩ := rereads_members (rereads hP _) (enc := []) ts [] js' s1 hw hs hm "topLevel".toList
  refine written_same (t := .union [] ts []) hn hP.closedDefs (.union a1) ?_ ?_ a4 ?_
  · simp only [PTy.erase, Ty.norm, a2]
  · intro q hq
    cases hq with
    | union ht hq => exact a3 _ ht q hq
  · intro q hq
    cases hq with
    | union ht hq =>
      obtain ⟨d, h1, h2, -⟩ := hm _ ht q hq
      exact ⟨d, h1, h2⟩

theorem unionSchema_exists {n : NS} {P : PDef → Prop} (hP : ClosedDefs n P) {ts : List PTy} (hs : PTy.AllSourced ts)
    (hm : ∀ t ∈ ts, ∀ q, Mentions t q → ∃ d, n.find q = some d ∧ P d) : ∃ j, unionSchema n ts = some j := by
  have hlen : unwritten n [] ≤ n.env.length := by
    unfold unwritten NS.env
    rw [List.length_map]
    exact List.length_filter_le _ _
  obtain ⟨js, s1, h1, -⟩ := writeMembers_exists (n := n) (k := n.env.length)
    (f := writeTy n (n.env.length * (n.env.fsize + 1) + Ty.sizes (PTy.erases ts))) ts (fun t ht scope hk => by
      have := size_mem (erases_mem ht)
      exact writeTy_exists hP (fieldsLe_fsize n.env) _ n.env.length t scope hk (by omega) (allSourced_mem hs ht) (hm t ht)) [] hlen
  unfold unionSchema
  rw [h1]
  exact ⟨_, rfl⟩

end Verif
