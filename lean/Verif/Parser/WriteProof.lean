import Verif.Parser.Sourced
/-
Reading back what `Definition` has written.
-/
set_option linter.unusedSimpArgs false
set_option linter.unusedVariables false
namespace Verif
open Spec

mutual
/-- The type with every reference by the name of the definition it stands for. -/
def Ty.norm (e : Env) : Ty → Ty
  | .array t => .array (t.norm e)
  | .map t => .map (t.norm e)
  | .union ts => .union (Ty.norms e ts)
  | .ref q => match e.find q with
    | some d => .ref d.name
    | none => .ref q
  | t => t
def Ty.norms (e : Env) : List Ty → List Ty
  | [] => []
  | t :: ts => t.norm e :: Ty.norms e ts
end

def Field.norm (e : Env) (f : Field) : Field := { f with ty := f.ty.norm e }

def Def.norm (e : Env) (d : Def) : Def :=
  { d with kind := match d.kind with
    | .record fs => .record (fs.map (Field.norm e))
    | k => k }

theorem Prim.norm (e : Env) (p : Prim) : p.ty.norm e = p.ty := by cases p <;> rfl

/-- What writing a type adds: definitions not written before, each like the one it stands for. -/
structure Written (n : NS) (P : PDef → Prop) (scope scope' : List QName) (ds : List PDef) : Prop where
  news : ∀ d' ∈ ds, ∃ q d, n.find q = some d ∧ P d ∧ d'.erase = d.erase.norm n.env ∧ d'.name ∉ scope
  scope : ∀ q, q ∈ scope' ↔ q ∈ scope ∨ ∃ d' ∈ ds, d'.name = q
  nodup : (ds.map PDef.name).Nodup
  closed : ∀ d' ∈ ds, ∀ fs doc, d'.kind = .record fs doc → ∀ f ∈ fs, ∀ q, Mentions f.ty q → q ∈ scope'

theorem Written.none {n P scope} : Written n P scope scope [] :=
  ⟨by simp, by simp, by simp, by simp⟩

theorem Written.append {n P s s1 s2 ds1 ds2} (h1 : Written n P s s1 ds1) (h2 : Written n P s1 s2 ds2) :
    Written n P s s2 (ds1 ++ ds2) := by
  refine ⟨?_, ?_, ?_, ?_⟩
  · intro d' hd
    rcases List.mem_append.1 hd with hd | hd
    · exact h1.news d' hd
    · obtain ⟨q, d, a1, a2, a3, a4⟩ := h2.news d' hd
      exact ⟨q, d, a1, a2, a3, fun hs => a4 ((h1.scope _).2 (.inl hs))⟩
  · intro q
    rw [h2.scope, h1.scope]
    simp only [List.mem_append]
    constructor
    · rintro ((h | ⟨d, h, e⟩) | ⟨d, h, e⟩)
      · exact .inl h
      · exact .inr ⟨d, .inl h, e⟩
      · exact .inr ⟨d, .inr h, e⟩
    · rintro (h | ⟨d, h | h, e⟩)
      · exact .inl (.inl h)
      · exact .inl (.inr ⟨d, h, e⟩)
      · exact .inr ⟨d, h, e⟩
  · rw [List.map_append, List.nodup_append]
    refine ⟨h1.nodup, h2.nodup, ?_⟩
    intro a ha b hb e
    subst e
    obtain ⟨d, hd, rfl⟩ := List.mem_map.1 ha
    obtain ⟨d2, hd2, e⟩ := List.mem_map.1 hb
    obtain ⟨q, d0, -, -, -, a4⟩ := h2.news d2 hd2
    exact a4 (by rw [e]; exact (h1.scope _).2 (.inr ⟨d, hd, rfl⟩))
  · intro d' hd fs doc hk f hf q hq
    rcases List.mem_append.1 hd with hd | hd
    · exact (h2.scope q).2 (.inl (h1.closed d' hd fs doc hk f hf q hq))
    · exact h2.closed d' hd fs doc hk f hf q hq

/-- The definitions keep their text, and where they are mentioned they may be moved to. -/
structure AllMovable (n : NS) (P : PDef → Prop) : Prop where
  sourced : ∀ d, P d → d.Sourced
  fields : ∀ d, P d → ∀ fs doc, d.kind = .record fs doc → ∀ f ∈ fs, ∀ q, Mentions f.ty q →
    ∃ d', n.find q = some d' ∧ P d' ∧ Movable d.name.ns d'

/-- What a type written in the namespace `enc` is read as. -/
def Rereads (n : NS) (P : PDef → Prop) (f : Writing) : Prop :=
  ∀ t scope j scope', f t scope = some (j, scope') → t.Sourced → ∀ enc,
    (∀ q, Mentions t q → ∃ d, n.find q = some d ∧ P d ∧ Movable enc d) → ∀ name,
    ∃ t' ds, Describes false name enc j t' ds ∧ t'.erase = t.erase.norm n.env ∧
      (∀ q, Mentions t' q → q ∈ scope') ∧ Written n P scope scope' ds

theorem rereads_members {n P f} (hf : Rereads n P f) {enc : Str} : ∀ ts scope js scope',
    writeMembers f ts scope = some (js, scope') → PTy.AllSourced ts →
    (∀ t ∈ ts, ∀ q, Mentions t q → ∃ d, n.find q = some d ∧ P d ∧ Movable enc d) → ∀ name,
    ∃ ts' ds, DescribesAll false name enc js ts' ds ∧ PTy.erases ts' = Ty.norms n.env (PTy.erases ts) ∧
      (∀ t ∈ ts', ∀ q, Mentions t q → q ∈ scope') ∧ Written n P scope scope' ds
  | [], scope, js, scope', h, hs, hm, name => by
    simp only [writeMembers, Option.some.injEq, Prod.mk.injEq] at h
    obtain ⟨rfl, rfl⟩ := h
    exact ⟨[], [], .nil, rfl, by simp, .none⟩
  | t :: ts, scope, js, scope', h, hs, hm, name => by
    simp only [writeMembers] at h
    split at h
    · cases h
    rename_i j s1 h1
    split at h
    · cases h
    rename_i js' s2 h2
    simp only [Option.some.injEq, Prod.mk.injEq] at h
    obtain ⟨rfl, rfl⟩ := h
    obtain ⟨t', ds, a1, a2, a3, a4⟩ := hf t scope j s1 h1 hs.1 enc (hm t (by simp)) name
    obtain ⟨ts', ds', b1, b2, b3, b4⟩ := rereads_members hf ts s1 js' s2 h2 hs.2 (fun u hu => hm u (by simp [hu])) name
    refine ⟨t' :: ts', ds ++ ds', .cons a1 b1, by simp [PTy.erases, Ty.norms, a2, b2], ?_, a4.append b4⟩
    intro u hu q hq
    rcases List.mem_cons.1 hu with rfl | hu
    · exact (b4.scope q).2 (.inl (a3 q hq))
    · exact b3 u hu q hq

theorem rereads_fields {n P f} (hf : Rereads n P f) {enc : Str} : ∀ fs scope js scope',
    writeFields f fs scope = some (js, scope') → (∀ x ∈ fs, x.Sourced) →
    (∀ x ∈ fs, ∀ q, Mentions x.ty q → ∃ d, n.find q = some d ∧ P d ∧ Movable enc d) →
    ∃ fs' ds, DescribesFields false enc js fs' ds ∧ fs'.map PField.erase = (fs.map PField.erase).map (Field.norm n.env) ∧
      (∀ x ∈ fs', ∀ q, Mentions x.ty q → q ∈ scope') ∧ Written n P scope scope' ds
  | [], scope, js, scope', h, hs, hm => by
    simp only [writeFields, Option.some.injEq, Prod.mk.injEq] at h
    obtain ⟨rfl, rfl⟩ := h
    exact ⟨[], [], .nil, rfl, by simp, .none⟩
  | x :: xs, scope, js, scope', h, hs, hm => by
    simp only [writeFields] at h
    split at h
    · cases h
    rename_i j s1 h1
    split at h
    · cases h
    rename_i js' s2 h2
    simp only [Option.some.injEq, Prod.mk.injEq] at h
    obtain ⟨rfl, rfl⟩ := h
    have hx := hs x (by simp)
    obtain ⟨t', ds, a1, a2, a3, a4⟩ := hf x.ty scope j s1 h1 hx.ty enc (hm x (by simp)) x.name
    obtain ⟨fs', ds', b1, b2, b3, b4⟩ := rereads_fields hf xs s1 js' s2 h2 (fun u hu => hs u (by simp [hu]))
      (fun u hu => hm u (by simp [hu]))
    have hne : ∀ k : Str, k ≠ "type".toList → (setKey "type".toList j x.defn).lookup k = x.defn.lookup k :=
      fun k hk => lookup_setKey_ne hk _ _
    have e1 := hne "name".toList (by decide)
    have e2 := hne "aliases".toList (by decide)
    have e3 := hne "doc".toList (by decide)
    have e4 := hne "golang.tags".toList (by decide)
    have e5 := hne "default".toList (by decide)
    refine ⟨_, ds ++ ds', .cons (name := x.name) (t := t') (aliases := x.aliases) (doc := x.doc) (tags := x.tags)
      (e1.trans hx.name) (lookup_setKey _ _ _) a1 ?_ ?_ ?_ b1, ?_, ?_, a4.append b4⟩
    · have := hx.aliases; unfold OptStrings at this ⊢; rw [e2]; exact this
    · have := hx.doc; unfold OptAttr at this ⊢; rw [e3]; exact this
    · have := hx.tags; unfold OptAttr at this ⊢; rw [e4]; exact this
    · simp only [List.map_cons, b2, List.cons.injEq, and_true]
      simp only [PField.erase, Field.norm, a2, e5, hx.dflt]
    · intro u hu q hq
      rcases List.mem_cons.1 hu with rfl | hu
      · exact (b4.scope q).2 (.inl (a3 q hq))
      · exact b3 u hu q hq

theorem rereads_record {n P f} (hP : AllMovable n P) (hf : Rereads n P f) {q d} (hq : n.find q = some d) (hd : P d)
    {fs doc} (hk : d.kind = .record fs doc) {scope js scope'} (hs : d.name ∉ scope)
    (h : writeFields f fs (d.name :: scope) = some (js, scope')) (enc : Str)
    (o : JObj) (hty : o.lookup "type".toList = some (.str "record".toList)) (hn : NameOf enc o d.name)
    (hfs : o.lookup "fields".toList = some (.arr js)) (ha : AliasesOf d.name.ns o d.aliases)
    (hdoc : OptAttr o "doc".toList doc) (name : Str) :
    ∃ ds, Describes false name enc (.obj o) (.ref d.name) ds ∧ d.name ∈ scope' ∧ Written n P scope scope' ds := by
  obtain ⟨-, c2, -, -⟩ := (hP.sourced d hd).record fs doc hk
  obtain ⟨fs', ds, a1, a2, a3, a4⟩ := rereads_fields hf (enc := d.name.ns) fs _ js scope' h c2
    (fun x hx q' hq' => hP.fields d hd fs doc hk x hx q' hq')
  refine ⟨_, .record hty hn hfs ha hdoc a1, (a4.scope _).2 (.inl (by simp)), ?_, ?_, ?_, ?_⟩
  · intro d' hd'
    rcases List.mem_append.1 hd' with hd' | hd'
    · obtain ⟨q', d0, b1, b2, b3, b4⟩ := a4.news d' hd'
      exact ⟨q', d0, b1, b2, b3, fun hh => b4 (by simp [hh])⟩
    · simp only [List.mem_singleton] at hd'
      subst hd'
      refine ⟨q, d, hq, hd, ?_, hs⟩
      simp only [PDef.erase, Def.norm, hk, a2]
  · intro q'
    rw [a4.scope]
    simp only [List.mem_cons, List.mem_append, List.not_mem_nil, or_false]
    constructor
    · rintro ((rfl | h) | ⟨d', h, e⟩)
      · exact .inr ⟨_, .inr rfl, rfl⟩
      · exact .inl h
      · exact .inr ⟨d', .inl h, e⟩
    · rintro (h | ⟨d', h | rfl, e⟩)
      · exact .inl (.inr h)
      · exact .inr ⟨d', h, e⟩
      · exact .inl (.inl e.symm)
  · rw [List.map_append, List.nodup_append]
    refine ⟨a4.nodup, by simp, ?_⟩
    intro a ha b hb e
    subst e
    obtain ⟨d', hd', rfl⟩ := List.mem_map.1 ha
    simp only [List.map_cons, List.map_nil, List.mem_singleton] at hb
    obtain ⟨-, -, -, -, -, b4⟩ := a4.news d' hd'
    exact b4 (by simp [hb])
  · intro d' hd' fs1 doc1 hk1 x hx q' hq'
    rcases List.mem_append.1 hd' with hd' | hd'
    · exact a4.closed d' hd' fs1 doc1 hk1 x hx q' hq'
    · simp only [List.mem_singleton] at hd'
      subst hd'
      cases hk1
      exact a3 x hx q' hq'

theorem rereads_def {n P f} (hP : AllMovable n P) (hf : Rereads n P f) {q d} (hq : n.find q = some d) (hd : P d)
    {scope j scope'} (h : writeDef f d scope = some (j, scope')) {enc : Str} (hm : Movable enc d) (name : Str) :
    ∃ ds, Describes false name enc j (.ref d.name) ds ∧ d.name ∈ scope' ∧ Written n P scope scope' ds := by
  unfold writeDef at h
  by_cases hs : d.name ∈ scope
  · rw [if_pos hs] at h
    simp only [Option.some.injEq, Prod.mk.injEq] at h
    obtain ⟨rfl, rfl⟩ := h
    exact ⟨[], .named hm.notPrim hm.full, hs, .none⟩
  rw [if_neg hs] at h
  have hsrc := hP.sourced d hd
  have single : ∀ d' : PDef, d'.name = d.name → d'.erase = d.erase.norm n.env → (∀ fs doc, d'.kind ≠ .record fs doc) →
      Written n P scope (d.name :: scope) [d'] := by
    intro d' e1 e2 e3
    refine ⟨?_, ?_, by simp, ?_⟩
    · intro x hx
      simp only [List.mem_singleton] at hx
      subst hx
      exact ⟨q, d, hq, hd, e2, by rw [e1]; exact hs⟩
    · intro q'
      simp only [List.mem_cons, List.mem_singleton, exists_eq_left, List.not_mem_nil, or_false, e1]
      constructor
      · rintro (rfl | h)
        · exact .inr rfl
        · exact .inl h
      · rintro (h | rfl)
        · exact .inr h
        · exact .inl rfl
    · intro x hx fs doc hk
      simp only [List.mem_singleton] at hx
      subst hx
      exact absurd hk (e3 fs doc)
  cases hk : d.kind with
  | record fs doc =>
    simp only [hk] at h
    split at h
    · cases h
    rename_i js s1 h1
    simp only [Option.some.injEq, Prod.mk.injEq] at h
    obtain ⟨rfl, rfl⟩ := h
    obtain ⟨c1, c2, c3, c4⟩ := hsrc.record fs doc hk
    have hne : ∀ k : Str, k ≠ "fields".toList → (setKey "fields".toList (.arr js) d.defn).lookup k = d.defn.lookup k :=
      fun k hk => lookup_setKey_ne hk _ _
    refine rereads_record hP hf hq hd hk hs h1 enc _ ((hne _ (by decide)).trans c1) ?_ (lookup_setKey _ _ _) ?_ ?_ name
    · obtain ⟨nm, ns, b1, b2, b3⟩ := hm.name
      refine ⟨nm, ns, (hne _ (by decide)).trans b1, ?_, b3⟩
      unfold OptAttr at b2 ⊢
      rw [hne _ (by decide)]; exact b2
    · obtain ⟨ss, b1, b2⟩ := c3
      refine ⟨ss, ?_, b2⟩
      unfold OptStrings at b1 ⊢
      rw [hne _ (by decide)]; exact b1
    · unfold OptAttr at c4 ⊢
      rw [hne _ (by decide)]; exact c4
  | enum ss doc dflt =>
    simp only [hk, Option.some.injEq, Prod.mk.injEq] at h
    obtain ⟨rfl, rfl⟩ := h
    obtain ⟨c1, c2, c3, c4⟩ := hsrc.enum ss doc dflt hk
    refine ⟨_, .enum c1 hm.name c2 (hm.aliases ss doc dflt hk) c3 c4, by simp, single _ rfl ?_ (by simp)⟩
    simp only [PDef.erase, Def.norm, hk]
  | fixed size =>
    simp only [hk, Option.some.injEq, Prod.mk.injEq] at h
    obtain ⟨rfl, rfl⟩ := h
    obtain ⟨c1, c2, c3⟩ := hsrc.fixed size hk
    refine ⟨_, .fixed c1 hm.name c2 c3, by simp, single _ rfl ?_ (by simp)⟩
    simp only [PDef.erase, Def.norm, hk]

theorem rereads {n : NS} {P : PDef → Prop} (hP : AllMovable n P) : ∀ k, Rereads n P (writeTy n k) := by
  intro k
  induction k with
  | zero => intro t scope j scope' h; simp [writeTy] at h
  | succ k ih =>
    intro t scope j scope' h hs enc hm name
    cases t with
    | prim p j0 =>
      simp only [writeTy, Option.some.injEq, Prod.mk.injEq] at h
      obtain ⟨rfl, rfl⟩ := h
      obtain ⟨s, hp, rfl | ⟨o, rfl, ho⟩⟩ := hs
      · exact ⟨_, [], .prim hp, by simp [PTy.erase, Prim.norm], (fun q hq => by cases hq), .none⟩
      · exact ⟨_, [], .primObject ho hp, by simp [PTy.erase, Prim.norm], (fun q hq => by cases hq), .none⟩
    | array t j0 =>
      obtain ⟨hs1, o, rfl, ho⟩ := hs
      simp only [writeTy] at h
      split at h
      · rename_i o' j' s' e h1
        cases e
        simp only [Option.some.injEq, Prod.mk.injEq] at h
        obtain ⟨rfl, rfl⟩ := h
        obtain ⟨t', ds, a1, a2, a3, a4⟩ := ih t scope _ _ h1 hs1 enc (fun q hq => hm q (.array hq)) name
        refine ⟨_, ds, .array ((lookup_setKey_ne (by decide) _ _).trans ho) (lookup_setKey _ _ _) a1,
          by simp [PTy.erase, Ty.norm, a2], ?_, a4⟩
        intro q hq; cases hq; exact a3 q (by assumption)
      · cases h
    | map t j0 =>
      obtain ⟨hs1, o, rfl, ho⟩ := hs
      simp only [writeTy] at h
      split at h
      · rename_i o' j' s' e h1
        cases e
        simp only [Option.some.injEq, Prod.mk.injEq] at h
        obtain ⟨rfl, rfl⟩ := h
        obtain ⟨t', ds, a1, a2, a3, a4⟩ := ih t scope _ _ h1 hs1 enc (fun q hq => hm q (.map hq)) name
        refine ⟨_, ds, .map ((lookup_setKey_ne (by decide) _ _).trans ho) (lookup_setKey _ _ _) a1,
          by simp [PTy.erase, Ty.norm, a2], ?_, a4⟩
        intro q hq; cases hq; exact a3 q (by assumption)
      · cases h
    | union nm ts js0 =>
      simp only [writeTy] at h
      split at h
      · cases h
      rename_i js s1 h1
      simp only [Option.some.injEq, Prod.mk.injEq] at h
      obtain ⟨rfl, rfl⟩ := h
      obtain ⟨ts', ds, a1, a2, a3, a4⟩ := rereads_members ih (enc := enc) ts scope js s1 h1 hs
        (fun t ht q hq => hm q (.union ht hq)) name
      refine ⟨_, ds, .union a1, by simp [PTy.erase, Ty.norm, a2], ?_, a4⟩
      intro q hq
      cases hq with
      | union ht hq => exact a3 _ ht q hq
    | ref q =>
      simp only [writeTy] at h
      split at h
      · cases h
      rename_i d hd
      obtain ⟨d2, e1, e2, e3⟩ := hm q .ref
      rw [hd] at e1
      cases e1
      obtain ⟨ds, a1, a2, a3⟩ := rereads_def hP ih hd e2 h e3 name
      refine ⟨_, ds, a1, ?_, ?_, a3⟩
      · simp only [PTy.erase, Ty.norm, env_find, hd, Option.map_some]
        rfl
      · intro q' hq'; cases hq'; exact a2

end Verif
