import Verif.Schema.CanReadProof
import Verif.Spec.Resolve
import Verif.Spec.Encoding
import Verif.Spec.Same
import Verif.Canonical.FormProof
/-
Schemas that mean the same: same data, same resolution.
-/
set_option linter.unusedSimpArgs false
set_option linter.unusedVariables false
namespace Verif
open Spec

/-- Fields alike in all that counts, `R` relating the types. -/
structure FieldTwin (R : Ty → Ty → Prop) (f f' : Field) : Prop where
  name : f.name = f'.name
  aliases : f.aliases = f'.aliases
  dflt : f.dflt = f'.dflt
  ty : R f.ty f'.ty

inductive BodyTwin (R : Ty → Ty → Prop) : DefKind → DefKind → Prop
  | record {fs fs'} : Each (FieldTwin R) fs fs' → BodyTwin R (.record fs) (.record fs')
  | enum {ss d} : BodyTwin R (.enum ss d) (.enum ss d)
  | fixed {n} : BodyTwin R (.fixed n) (.fixed n)

inductive TwinStep (e e' : Env) (R : Ty → Ty → Prop) : Ty → Ty → Prop
  | prim {t} : t ∈ primitives → TwinStep e e' R t t
  | array {t t'} : R t t' → TwinStep e e' R (.array t) (.array t')
  | map {t t'} : R t t' → TwinStep e e' R (.map t) (.map t')
  | union {ts ts'} : Each R ts ts' → TwinStep e e' R (.union ts) (.union ts')
  | ref {q q' d d'} : e.find q = some d → e'.find q' = some d' → d.name = d'.name → d.aliases = d'.aliases →
      BodyTwin R d.kind d'.kind → TwinStep e e' R (.ref q) (.ref q')

/-- `R` relates types that mean the same. -/
def Bisim (e e' : Env) (R : Ty → Ty → Prop) : Prop := ∀ t t', R t t' → TwinStep e e' R t t'

theorem each_flip {α β : Type} {R : α → β → Prop} {l l'} (h : Each R l l') : Each (fun b a => R a b) l' l := by
  induction h with
  | nil => exact .nil
  | cons h _ ih => exact .cons h ih

theorem each_mono {α β : Type} {R S : α → β → Prop} (hRS : ∀ a b, R a b → S a b) {l l'} (h : Each R l l') : Each S l l' := by
  induction h with
  | nil => exact .nil
  | cons h _ ih => exact .cons (hRS _ _ h) ih

theorem Bisim.flip {e e' R} (h : Bisim e e' R) : Bisim e' e (fun b a => R a b) := by
  intro t t' ht
  cases h t' t ht with
  | prim hp => exact .prim hp
  | array h1 => exact .array h1
  | map h1 => exact .map h1
  | union h1 => exact .union (each_flip h1)
  | ref h1 h2 h3 h4 h5 =>
    refine .ref h2 h1 h3.symm h4.symm ?_
    revert h5
    generalize Def.kind _ = k1
    generalize Def.kind _ = k2
    intro h5
    cases h5 with
    | record hf =>
      exact .record (each_mono (fun a b hab => ⟨hab.name.symm, hab.aliases.symm, hab.dflt.symm, hab.ty⟩) (each_flip hf))
    | enum => exact .enum
    | fixed => exact .fixed

theorem alikeTys_each {e e' : Env} {ts ts' : List Ty} (h : AlikeTys e e' ts ts') : Each (AlikeTy e e') ts ts' := by
  induction ts generalizing ts' with
  | nil => cases h; exact .nil
  | cons t ts ih =>
    cases h with
    | cons h1 h2 => exact .cons h1 (ih h2)

theorem each_and {α β : Type} {R : α → β → Prop} {p : α → Prop} {l l'} (h : Each R l l') (hp : ∀ a ∈ l, p a) :
    Each (fun a b => R a b ∧ p a) l l' := by
  induction h with
  | nil => exact .nil
  | cons h _ ih => exact .cons ⟨h, hp _ (by simp)⟩ (ih fun a ha => hp a (by simp [ha]))

/-- Schemas that are the same are related. -/
theorem Spec.Same.bisim {s s' : Schema} (h : Same s s') (hf : ∀ q, Reachable s q → ∃ d, s.env.find q = some d) :
    Bisim s.env s'.env (fun t t' => AlikeTy s.env s'.env t t' ∧ ∀ q, TyMentions t q → Reachable s q) := by
  rintro t t' ⟨h1, h2⟩
  cases h1 with
  | prim hp => exact .prim hp
  | array h1 => exact .array ⟨h1, fun q hq => h2 q (.array hq)⟩
  | map h1 => exact .map ⟨h1, fun q hq => h2 q (.map hq)⟩
  | union h1 => exact .union (each_and (alikeTys_each h1) fun t ht q hq => h2 q (.union ht hq))
  | @ref q q' d d' e1 e2 e3 =>
    obtain ⟨e4, e5⟩ := h.defs q (h2 q .ref) d e1 q' d' e2 e3.symm
    refine .ref e1 e2 e3 e4.symm ?_
    have hq := h2 q .ref
    have hfld : ∀ fs, d.kind = .record fs → ∀ f ∈ fs, ∀ q, TyMentions f.ty q → Reachable s q :=
      fun fs hk f hf q' hq' => .field hq e1 hk hf hq'
    revert e5 hfld
    generalize d.kind = k1
    generalize d'.kind = k2
    intro e5 hfld
    cases e5 with
    | enum => exact .enum
    | fixed => exact .fixed
    | @record fs fs' hs =>
      refine .record ?_
      have hx : ∀ f ∈ fs, ∀ q, TyMentions f.ty q → Reachable s q := fun f hf => hfld fs rfl f hf
      revert hx
      clear hfld
      intro hx
      induction hs with
      | nil => exact .nil
      | cons a1 a2 a3 a4 _ ih =>
        exact .cons ⟨a1, a2, a3, a4, hx _ (by simp)⟩ (ih fun f hf => hx f (by simp [hf]))

theorem Spec.Same.alike {s s' : Schema} (h : Same s s') : Alike s s' := by
  refine ⟨h.root, fun q hq d hd q' d' hd' hn => ?_⟩
  obtain ⟨-, h1⟩ := h.defs q hq d hd q' d' hd' hn
  revert h1
  generalize d.kind = k1
  generalize d'.kind = k2
  intro h1
  cases h1 with
  | enum => exact .enum
  | fixed => exact .fixed
  | record hs =>
    refine .record ?_
    induction hs with
    | nil => exact .nil
    | cons a1 a2 a3 a4 _ ih => exact .cons a1 a4 ih

/-! ### names and readability -/

section
variable {e e' : Env} {R : Ty → Ty → Prop}

theorem step_goName (h : Bisim e e' R) : (∀ t t', R t t' → t.goName e = t'.goName e') := by
  intro t
  refine Ty.rec (motive_1 := fun t => ∀ t', R t t' → t.goName e = t'.goName e')
    (motive_2 := fun ts => ∀ ts', Each R ts ts' → Ty.goNames e ts = Ty.goNames e' ts')
    ?_ ?_ ?_ ?_ ?_ ?_ ?_ ?_ ?_ ?_ ?_ ?_ ?_ ?_ t
  iterate 8 (intro t' ht; cases h _ _ ht; simp only [Ty.goName])
  · intro t ih t' ht
    cases h _ _ ht with
    | array h1 => simp only [Ty.goName, ih _ h1]
    | prim hp => simp [primitives] at hp
  · intro t ih t' ht
    cases h _ _ ht with
    | map h1 => simp only [Ty.goName, ih _ h1]
    | prim hp => simp [primitives] at hp
  · intro ts ih t' ht
    cases h _ _ ht with
    | union h1 => simp only [Ty.goName, ih _ h1]
    | prim hp => simp [primitives] at hp
  · intro q t' ht
    cases h _ _ ht with
    | ref e1 e2 e3 _ _ => simp only [Ty.goName, e1, e2, Def.goName, e3]
    | prim hp => simp [primitives] at hp
  · intro ts' h'; cases h'; rfl
  · intro t ts ih1 ih2 ts' h'
    cases h' with
    | cons h1 h2 => simp only [Ty.goNames, ih1 _ h1, ih2 _ h2]

theorem each_mem_left {α β : Type} {R : α → β → Prop} {l l'} (h : Each R l l') {a} (ha : a ∈ l) : ∃ b ∈ l', R a b := by
  induction h with
  | nil => simp at ha
  | cons h _ ih =>
    rcases List.mem_cons.1 ha with rfl | ha
    · exact ⟨_, by simp, h⟩
    · obtain ⟨b, h1, h2⟩ := ih ha
      exact ⟨b, by simp [h1], h2⟩

theorem bodyTwin_kind {k k' l l' : DefKind} {W R : Ty → Ty → Prop} (hw : BodyTwin W k k') (hr : BodyTwin R l l')
    (h : SameKind k l) : SameKind k' l' := by
  cases hw <;> cases hr <;> simpa [SameKind] using h

theorem canRead_twin {we re we' re' : Env} {W R : Ty → Ty → Prop} (hw : Bisim we we' W) (hr : Bisim re re' R) {w r : Ty}
    (h : CanRead we re w r) : ∀ {w' r'}, W w w' → R r r' → CanRead we' re' w' r' := by
  induction h with
  | @ofUnion ts t r ht _ ih =>
    intro w' r' h1 h2
    cases hw _ _ h1 with
    | union h3 =>
      obtain ⟨t', h4, h5⟩ := each_mem_left h3 ht
      exact .ofUnion h4 (ih h5 h2)
    | prim hp => simp [primitives] at hp
  | @intoUnion w rs r ht _ ih =>
    intro w' r' h1 h2
    cases hr _ _ h2 with
    | union h3 =>
      obtain ⟨t', h4, h5⟩ := each_mem_left h3 ht
      exact .intoUnion h4 (ih h1 h5)
    | prim hp => simp [primitives] at hp
  | array _ ih =>
    intro w' r' h1 h2
    cases hw _ _ h1 with
    | prim hp => simp [primitives] at hp
    | array h3 =>
      cases hr _ _ h2 with
      | prim hp => simp [primitives] at hp
      | array h4 => exact .array (ih h3 h4)
  | map _ ih =>
    intro w' r' h1 h2
    cases hw _ _ h1 with
    | prim hp => simp [primitives] at hp
    | map h3 =>
      cases hr _ _ h2 with
      | prim hp => simp [primitives] at hp
      | map h4 => exact .map (ih h3 h4)
  | ref a1 a2 a3 a4 =>
    intro w' r' h1 h2
    cases hw _ _ h1 with
    | prim hp => simp [primitives] at hp
    | ref b1 b2 b3 b4 b5 =>
      cases hr _ _ h2 with
      | prim hp => simp [primitives] at hp
      | ref c1 c2 c3 c4 c5 =>
        rw [a1] at b1; cases b1
        rw [a2] at c1; cases c1
        refine .ref b2 c2 ?_ (bodyTwin_kind b5 c5 a4)
        unfold SameName at a3 ⊢
        rw [← b3, ← c3, ← c4]
        exact a3
  | _ =>
    intro w' r' h1 h2
    cases hw _ _ h1
    cases hr _ _ h2
    constructor

theorem readable_twin {we re we' re' : Env} {W R : Ty → Ty → Prop} (hw : Bisim we we' W) (hr : Bisim re re' R) {w w' r r' : Ty}
    (h1 : W w w') (h2 : R r r') : w.readableBy we re r = w'.readableBy we' re' r' := by
  rw [Bool.eq_iff_iff, readable_iff, readable_iff]
  exact ⟨fun h => canRead_twin hw hr h h1 h2, fun h => canRead_twin hw.flip hr.flip h h1 h2⟩

end

/-! ### encodings -/

section
variable {e e' : Env} {R : Ty → Ty → Prop}

theorem each_get {α β : Type} {R : α → β → Prop} {l l'} (h : Each R l l') : ∀ i : Nat,
    (l[i]? = none ∧ l'[i]? = none) ∨ ∃ a b, l[i]? = some a ∧ l'[i]? = some b ∧ R a b := by
  induction h with
  | nil => intro i; exact .inl (by simp)
  | cons h _ ih =>
    intro i
    cases i with
    | zero => exact .inr ⟨_, _, rfl, rfl, h⟩
    | succ i => simpa using ih i

mutual
theorem enc_twin (h : Bisim e e' R) : ∀ (d : Datum) (t t' : Ty) (bs : List Byte), R t t' → Enc e d t bs → Enc e' d t' bs
  | .null, t, t', bs, ht, hd => by simp only [Enc] at hd ⊢; obtain ⟨rfl, rfl⟩ := hd; cases h _ _ ht; exact ⟨rfl, rfl⟩
  | .bool _, t, t', bs, ht, hd => by simp only [Enc] at hd ⊢; obtain ⟨rfl, rfl⟩ := hd; cases h _ _ ht; exact ⟨rfl, rfl⟩
  | .int _, t, t', bs, ht, hd => by simp only [Enc] at hd ⊢; obtain ⟨rfl, rfl⟩ := hd; cases h _ _ ht; exact ⟨rfl, rfl⟩
  | .long _, t, t', bs, ht, hd => by simp only [Enc] at hd ⊢; obtain ⟨rfl, rfl⟩ := hd; cases h _ _ ht; exact ⟨rfl, rfl⟩
  | .float _, t, t', bs, ht, hd => by simp only [Enc] at hd ⊢; obtain ⟨rfl, rfl⟩ := hd; cases h _ _ ht; exact ⟨rfl, rfl⟩
  | .double _, t, t', bs, ht, hd => by simp only [Enc] at hd ⊢; obtain ⟨rfl, rfl⟩ := hd; cases h _ _ ht; exact ⟨rfl, rfl⟩
  | .bytes _, t, t', bs, ht, hd => by simp only [Enc] at hd ⊢; obtain ⟨rfl, rfl⟩ := hd; cases h _ _ ht; exact ⟨rfl, rfl⟩
  | .string _, t, t', bs, ht, hd => by simp only [Enc] at hd ⊢; obtain ⟨rfl, rfl⟩ := hd; cases h _ _ ht; exact ⟨rfl, rfl⟩
  | .fixed x, t, t', bs, ht, hd => by
    simp only [Enc] at hd ⊢
    obtain ⟨q, d, rfl, h1, h2, h3⟩ := hd
    cases h _ _ ht with
    | prim hp => simp [primitives] at hp
    | @ref _ q' d1 d' e1 e2 _ _ e5 =>
      rw [h1] at e1; cases e1
      rw [h2] at e5
      refine ⟨q', d', rfl, e2, ?_, h3⟩
      revert e5; generalize d'.kind = k; intro e5; cases e5; rfl
  | .enum i, t, t', bs, ht, hd => by
    simp only [Enc] at hd ⊢
    obtain ⟨q, d, ss, dflt, rfl, h1, h2, h3⟩ := hd
    cases h _ _ ht with
    | prim hp => simp [primitives] at hp
    | @ref _ q' d1 d' e1 e2 _ _ e5 =>
      rw [h1] at e1; cases e1
      rw [h2] at e5
      refine ⟨q', d', ss, dflt, rfl, e2, ?_, h3⟩
      revert e5; generalize d'.kind = k; intro e5; cases e5; rfl
  | .array ds, t, t', bs, ht, hd => by
    simp only [Enc] at hd ⊢
    obtain ⟨item, es, rfl, h1, h2⟩ := hd
    cases h _ _ ht with
    | prim hp => simp [primitives] at hp
    | array h3 => exact ⟨_, es, rfl, encAll_twin h ds _ _ es h3 h1, h2⟩
  | .map kds, t, t', bs, ht, hd => by
    simp only [Enc] at hd ⊢
    obtain ⟨item, es, rfl, h1, h2⟩ := hd
    cases h _ _ ht with
    | prim hp => simp [primitives] at hp
    | map h3 => exact ⟨_, es, rfl, encEntries_twin h kds _ _ es h3 h1, h2⟩
  | .union i d, t, t', bs, ht, hd => by
    simp only [Enc] at hd ⊢
    obtain ⟨ts, u, x, rfl, h1, h2, h3⟩ := hd
    cases h _ _ ht with
    | prim hp => simp [primitives] at hp
    | union h4 =>
      rcases each_get h4 i with ⟨h5, -⟩ | ⟨a, b, h5, h6, h7⟩
      · rw [h5] at h1; cases h1
      · rw [h5] at h1; cases h1
        exact ⟨_, b, x, rfl, h6, enc_twin h d _ _ x h7 h2, h3⟩
  | .record ds, t, t', bs, ht, hd => by
    simp only [Enc] at hd ⊢
    obtain ⟨q, d, fs, rfl, h1, h2, h3⟩ := hd
    cases h _ _ ht with
    | prim hp => simp [primitives] at hp
    | @ref _ q' d1 d' e1 e2 _ _ e5 =>
      rw [h1] at e1; cases e1
      rw [h2] at e5
      generalize hk' : d'.kind = k at e5
      cases e5 with
      | record hf => exact ⟨q', d', _, rfl, e2, hk', encFields_twin h ds _ _ bs hf h3⟩
theorem encAll_twin (h : Bisim e e' R) : ∀ (ds : List Datum) (t t' : Ty) (es : List (List Byte)), R t t' →
    EncAll e ds t es → EncAll e' ds t' es
  | [], t, t', es, ht, hd => by simpa only [EncAll] using hd
  | d :: ds, t, t', es, ht, hd => by
    simp only [EncAll] at hd ⊢
    obtain ⟨x, es', rfl, h1, h2⟩ := hd
    exact ⟨x, es', rfl, enc_twin h d _ _ x ht h1, encAll_twin h ds _ _ es' ht h2⟩
theorem encEntries_twin (h : Bisim e e' R) : ∀ (ds : List (List Byte × Datum)) (t t' : Ty) (es : List (List Byte)), R t t' →
    EncEntries e ds t es → EncEntries e' ds t' es
  | [], t, t', es, ht, hd => by simpa only [EncEntries] using hd
  | (k, d) :: ds, t, t', es, ht, hd => by
    simp only [EncEntries] at hd ⊢
    obtain ⟨x, es', rfl, h1, h2⟩ := hd
    exact ⟨x, es', rfl, enc_twin h d _ _ x ht h1, encEntries_twin h ds _ _ es' ht h2⟩
theorem encFields_twin (h : Bisim e e' R) : ∀ (ds : List Datum) (fs fs' : List Field) (bs : List Byte), Each (FieldTwin R) fs fs' →
    EncFields e ds fs bs → EncFields e' ds fs' bs
  | [], fs, fs', bs, ht, hd => by
    simp only [EncFields] at hd ⊢
    obtain ⟨rfl, rfl⟩ := hd
    cases ht; exact ⟨rfl, rfl⟩
  | d :: ds, fs, fs', bs, ht, hd => by
    simp only [EncFields] at hd ⊢
    obtain ⟨f, fs1, x, bs', rfl, h1, h2, h3⟩ := hd
    cases ht with
    | cons h4 h5 => exact ⟨_, _, x, bs', rfl, enc_twin h d _ _ x h4.ty h1, encFields_twin h ds _ _ bs' h5 h2, h3⟩
end
end

/-! ### resolution -/

section
variable {we re we' re' : Env} {W R : Ty → Ty → Prop}

theorem findIdx_twin {p p' : Ty → Bool} (hp : ∀ t t', R t t' → p t = p' t') {ts ts' : List Ty} (h : Each R ts ts') : ∀ i,
    (findIdx p i ts = none ∧ findIdx p' i ts' = none) ∨
      ∃ j t t', findIdx p i ts = some (j, t) ∧ findIdx p' i ts' = some (j, t') ∧ R t t' := by
  induction h with
  | nil => intro i; exact .inl ⟨rfl, rfl⟩
  | cons h _ ih =>
    intro i
    simp only [findIdx]
    rw [hp _ _ h]
    split
    · exact .inr ⟨_, _, _, rfl, rfl, h⟩
    · exact ih (i + 1)

theorem intoReader_twin (hw : Bisim we we' W) (hr : Bisim re re' R) {w w' : Ty} (h1 : W w w') {f f' : Ty → Option Val}
    (hf : ∀ r r', R r r' → f r = f' r') {r r' : Ty} (h2 : R r r') :
    intoReader we re w f r = intoReader we' re' w' f' r' := by
  have h3 := hf _ _ h2
  cases hr _ _ h2 with
  | union h4 =>
    simp only [intoReader]
    rcases findIdx_twin (p := w.readableBy we re) (p' := w'.readableBy we' re')
      (fun t t' ht => readable_twin hw hr h1 ht) h4 0 with ⟨h5, h6⟩ | ⟨j, t, t', h5, h6, h7⟩
    · rw [h5, h6]
    · rw [h5, h6]
      dsimp only
      rw [hf _ _ h7]
  | prim hp =>
    simp only [primitives, List.mem_cons, List.not_mem_nil, or_false] at hp
    rcases hp with rfl | rfl | rfl | rfl | rfl | rfl | rfl | rfl <;> exact h3
  | _ => exact h3

theorem pickBranch_twin (hw : Bisim we we' W) (hr : Bisim re re' R) {w w' : Ty} (h1 : W w w') {rs rs' : List Ty}
    (h2 : Each R rs rs') : (pickBranch we re w rs = none ∧ pickBranch we' re' w' rs' = none) ∨
      ∃ j t t', pickBranch we re w rs = some (j, t) ∧ pickBranch we' re' w' rs' = some (j, t') ∧ R t t' := by
  unfold pickBranch
  rcases findIdx_twin (p := fun r => r.goName re == w.goName we) (p' := fun r => r.goName re' == w'.goName we')
      (fun t t' ht => by rw [step_goName hr _ _ ht, step_goName hw _ _ h1]) h2 0 with ⟨h5, h6⟩ | ⟨j, t, t', h5, h6, h7⟩
  · rw [h5, h6]
    exact findIdx_twin (p := w.readableBy we re) (p' := w'.readableBy we' re')
      (fun t t' ht => readable_twin hw hr h1 ht) h2 0
  · rw [h5, h6]
    exact .inr ⟨j, t, t', rfl, rfl, h7⟩

/-- A function that looks only at whether the type is primitive. -/
theorem leaf_twin (hr : Bisim re re' R) {f : Ty → Option Val} (hf : ∀ t, t ∉ primitives → f t = none) {r r' : Ty} (h : R r r') :
    f r = f r' := by
  cases hr _ _ h with
  | prim hp => rfl
  | _ => rw [hf _ (by simp [primitives]), hf _ (by simp [primitives])]

theorem defAs_twin (hw : Bisim we we' W) (hr : Bisim re re' R) {q q' : QName} (h1 : W (.ref q) (.ref q'))
    {k k' : DefKind → DefKind → Option Val}
    (hk : ∀ a a' b b', BodyTwin W a a' → BodyTwin R b b' → k a b = k' a' b') {r r' : Ty} (h2 : R r r') :
    defAs we re q k r = defAs we' re' q' k' r' := by
  cases hr _ _ h2 with
  | prim hp =>
    simp only [primitives, List.mem_cons, List.not_mem_nil, or_false] at hp
    rcases hp with rfl | rfl | rfl | rfl | rfl | rfl | rfl | rfl <;> rfl
  | ref b1 b2 b3 b4 b5 =>
    cases hw _ _ h1 with
    | prim hp => simp [primitives] at hp
    | ref a1 a2 a3 a4 a5 =>
      simp only [defAs, a1, a2, b1, b2]
      have : ∀ {w w' r r' : Def}, w.name = w'.name → r.name = r'.name → r.aliases = r'.aliases → BodyTwin W w.kind w'.kind →
          BodyTwin R r.kind r'.kind → w.readableBy r = w'.readableBy r' := by
        intro w w' r r' e1 e2 e3 e4 e5
        have hn : hasMatchingName w.name r = hasMatchingName w'.name r' := by simp only [hasMatchingName, e1, e2, e3]
        unfold Def.readableBy
        rw [hn]
        revert e4 e5
        generalize w.kind = x1
        generalize w'.kind = x2
        generalize r.kind = x3
        generalize r'.kind = x4
        intro e4 e5
        cases e4 <;> cases e5 <;> rfl
      rw [this a3 b3 b4 a5 b5, hk _ _ _ _ a5 b5]
  | _ => rfl

theorem readNull_twin (hr : Bisim re re' R) {r r' : Ty} (h : R r r') : readNull r = readNull r' := by
  cases hr _ _ h with
  | prim hp => rfl
  | union h1 =>
    have hi : ∀ t t', R t t' → t.isNull = t'.isNull := by
      intro t t' ht
      cases hr _ _ ht <;> rfl
    have hany : ∀ {ts ts' : List Ty}, Each R ts ts' → ts.any Ty.isNull = ts'.any Ty.isNull := by
      intro ts ts' h
      induction h with
      | nil => rfl
      | cons h _ ih => simp only [List.any_cons, hi _ _ h, ih]
    simp only [readNull, Ty.nullable, hany h1]
    congr
  | _ => rfl

theorem isNull_twin (hr : Bisim re re' R) {r r' : Ty} (h : R r r') : r.isNull = r'.isNull := by
  cases hr _ _ h <;> rfl

theorem fieldByName_twin {fs fs' : List Field} (h : Each (FieldTwin R) fs fs') (nm : Str) : ∀ i : Nat,
    (fieldByNameFrom i fs nm = none ∧ fieldByNameFrom i fs' nm = none) ∨
      ∃ j f f', fieldByNameFrom i fs nm = some (j, f) ∧ fieldByNameFrom i fs' nm = some (j, f') ∧ FieldTwin R f f' := by
  induction h with
  | nil => intro i; exact .inl ⟨rfl, rfl⟩
  | cons h _ ih =>
    intro i
    simp only [fieldByNameFrom, h.name, h.aliases]
    split
    · exact .inr ⟨_, _, _, rfl, rfl, h⟩
    · exact ih (i + 1)

theorem fillDefaults_twin {dv dv' : Field → Val} (hdv : ∀ f f', FieldTwin R f f' → f.dflt.isSome → dv f = dv' f') {fs fs' : List Field}
    (h : Each (FieldTwin R) fs fs') : ∀ slots, fillDefaults dv fs slots = fillDefaults dv' fs' slots := by
  induction h with
  | nil => intro slots; cases slots <;> rfl
  | cons h _ ih =>
    intro slots
    cases slots with
    | nil => rfl
    | cons s slots =>
      cases s with
      | none =>
        simp only [fillDefaults, h.dflt, ih slots]
        split
        · rename_i hs
          rw [hdv _ _ h (by rw [h.dflt]; exact hs)]
        · rfl
      | some v => simp only [fillDefaults, ih slots]

theorem each_length {α β : Type} {R : α → β → Prop} {l l'} (h : Each R l l') : l.length = l'.length := by
  induction h with
  | nil => rfl
  | cons _ _ ih => simp [ih]

variable {drop : Datum → Bool} {dv dv' : Field → Val}

mutual
theorem resolve_twin (hw : Bisim we we' W) (hr : Bisim re re' R) (hdv : ∀ f f', FieldTwin R f f' → f.dflt.isSome → dv f = dv' f') :
    ∀ (d : Datum) (w w' r r' : Ty), W w w' → R r r' → resolve drop dv we re d w r = resolve drop dv' we' re' d w' r'
  | .null, w, w', r, r', h1, h2 => by
    simp only [resolve, isNull_twin hw h1, readNull_twin hr h2]
  | .bool b, w, w', r, r', h1, h2 => by
    cases hw _ _ h1 with
    | prim hp =>
      simp only [primitives, List.mem_cons, List.not_mem_nil, or_false] at hp
      rcases hp with rfl | rfl | rfl | rfl | rfl | rfl | rfl | rfl <;> simp only [resolve]
      exact intoReader_twin hw hr h1 (fun r r' h => leaf_twin hr (fun t ht => by cases t <;> first | rfl | simp [primitives] at ht) h) h2
    | _ => simp only [resolve]
  | .int b, w, w', r, r', h1, h2 => by
    cases hw _ _ h1 with
    | prim hp =>
      simp only [primitives, List.mem_cons, List.not_mem_nil, or_false] at hp
      rcases hp with rfl | rfl | rfl | rfl | rfl | rfl | rfl | rfl <;> simp only [resolve]
      exact intoReader_twin hw hr h1 (fun r r' h => leaf_twin hr (fun t ht => by cases t <;> first | rfl | simp [primitives] at ht) h) h2
    | _ => simp only [resolve]
  | .long b, w, w', r, r', h1, h2 => by
    cases hw _ _ h1 with
    | prim hp =>
      simp only [primitives, List.mem_cons, List.not_mem_nil, or_false] at hp
      rcases hp with rfl | rfl | rfl | rfl | rfl | rfl | rfl | rfl <;> simp only [resolve]
      exact intoReader_twin hw hr h1 (fun r r' h => leaf_twin hr (fun t ht => by cases t <;> first | rfl | simp [primitives] at ht) h) h2
    | _ => simp only [resolve]
  | .float b, w, w', r, r', h1, h2 => by
    cases hw _ _ h1 with
    | prim hp =>
      simp only [primitives, List.mem_cons, List.not_mem_nil, or_false] at hp
      rcases hp with rfl | rfl | rfl | rfl | rfl | rfl | rfl | rfl <;> simp only [resolve]
      exact intoReader_twin hw hr h1 (fun r r' h => leaf_twin hr (fun t ht => by cases t <;> first | rfl | simp [primitives] at ht) h) h2
    | _ => simp only [resolve]
  | .double b, w, w', r, r', h1, h2 => by
    cases hw _ _ h1 with
    | prim hp =>
      simp only [primitives, List.mem_cons, List.not_mem_nil, or_false] at hp
      rcases hp with rfl | rfl | rfl | rfl | rfl | rfl | rfl | rfl <;> simp only [resolve]
      exact intoReader_twin hw hr h1 (fun r r' h => leaf_twin hr (fun t ht => by cases t <;> first | rfl | simp [primitives] at ht) h) h2
    | _ => simp only [resolve]
  | .bytes b, w, w', r, r', h1, h2 => by
    cases hw _ _ h1 with
    | prim hp =>
      simp only [primitives, List.mem_cons, List.not_mem_nil, or_false] at hp
      rcases hp with rfl | rfl | rfl | rfl | rfl | rfl | rfl | rfl <;> simp only [resolve]
      exact intoReader_twin hw hr h1 (fun r r' h => leaf_twin hr (fun t ht => by cases t <;> first | rfl | simp [primitives] at ht) h) h2
    | _ => simp only [resolve]
  | .string b, w, w', r, r', h1, h2 => by
    cases hw _ _ h1 with
    | prim hp =>
      simp only [primitives, List.mem_cons, List.not_mem_nil, or_false] at hp
      rcases hp with rfl | rfl | rfl | rfl | rfl | rfl | rfl | rfl <;> simp only [resolve]
      exact intoReader_twin hw hr h1 (fun r r' h => leaf_twin hr (fun t ht => by cases t <;> first | rfl | simp [primitives] at ht) h) h2
    | _ => simp only [resolve]
  | .fixed bs, w, w', r, r', h1, h2 => by
    cases hw _ _ h1 with
    | prim hp =>
      simp only [primitives, List.mem_cons, List.not_mem_nil, or_false] at hp
      rcases hp with rfl | rfl | rfl | rfl | rfl | rfl | rfl | rfl <;> simp only [resolve]
    | ref _ _ _ _ _ =>
      simp only [resolve]
      exact intoReader_twin hw hr h1 (fun r r' h => defAs_twin hw hr h1 (fun a a' b b' ha hb => by cases ha <;> cases hb <;> rfl) h) h2
    | _ => simp only [resolve]
  | .enum i, w, w', r, r', h1, h2 => by
    cases hw _ _ h1 with
    | prim hp =>
      simp only [primitives, List.mem_cons, List.not_mem_nil, or_false] at hp
      rcases hp with rfl | rfl | rfl | rfl | rfl | rfl | rfl | rfl <;> simp only [resolve]
    | ref _ _ _ _ _ =>
      simp only [resolve]
      exact intoReader_twin hw hr h1 (fun r r' h => defAs_twin hw hr h1 (fun a a' b b' ha hb => by cases ha <;> cases hb <;> rfl) h) h2
    | _ => simp only [resolve]
  | .array ds, w, w', r, r', h1, h2 => by
    cases hw _ _ h1 with
    | prim hp =>
      simp only [primitives, List.mem_cons, List.not_mem_nil, or_false] at hp
      rcases hp with rfl | rfl | rfl | rfl | rfl | rfl | rfl | rfl <;> simp only [resolve]
    | array h3 =>
      simp only [resolve]
      refine intoReader_twin hw hr h1 (fun r r' h => ?_) h2
      cases hr _ _ h with
      | prim hp =>
        simp only [primitives, List.mem_cons, List.not_mem_nil, or_false] at hp
        rcases hp with rfl | rfl | rfl | rfl | rfl | rfl | rfl | rfl <;> rfl
      | array h4 =>
        dsimp only
        rw [resolveItems_twin hw hr hdv ds _ _ _ _ h3 h4]
      | _ => rfl
    | _ => simp only [resolve]
  | .map ds, w, w', r, r', h1, h2 => by
    cases hw _ _ h1 with
    | prim hp =>
      simp only [primitives, List.mem_cons, List.not_mem_nil, or_false] at hp
      rcases hp with rfl | rfl | rfl | rfl | rfl | rfl | rfl | rfl <;> simp only [resolve]
    | map h3 =>
      simp only [resolve]
      refine intoReader_twin hw hr h1 (fun r r' h => ?_) h2
      cases hr _ _ h with
      | prim hp =>
        simp only [primitives, List.mem_cons, List.not_mem_nil, or_false] at hp
        rcases hp with rfl | rfl | rfl | rfl | rfl | rfl | rfl | rfl <;> rfl
      | map h4 =>
        dsimp only
        rw [resolveEntries_twin hw hr hdv ds _ _ _ _ h3 h4]
      | _ => rfl
    | _ => simp only [resolve]
  | .union i d, w, w', r, r', h1, h2 => by
    cases hw _ _ h1 with
    | prim hp =>
      simp only [primitives, List.mem_cons, List.not_mem_nil, or_false] at hp
      rcases hp with rfl | rfl | rfl | rfl | rfl | rfl | rfl | rfl <;> simp only [resolve]
    | union h3 =>
      simp only [resolve]
      rcases each_get h3 i with ⟨h5, h6⟩ | ⟨a, b, h5, h6, h7⟩
      · rw [h5, h6]
      rw [h5, h6]
      dsimp only
      rw [isNull_twin hw h7, readNull_twin hr h2]
      split
      · rfl
      have hplain : (if a.readableBy we re r then resolve drop dv we re d a r else none) =
          (if b.readableBy we' re' r' then resolve drop dv' we' re' d b r' else none) := by
        rw [readable_twin hw hr h7 h2, resolve_twin hw hr hdv d a b r r' h7 h2]
      cases hr _ _ h2 with
      | prim hp =>
        simp only [primitives, List.mem_cons, List.not_mem_nil, or_false] at hp
        rcases hp with rfl | rfl | rfl | rfl | rfl | rfl | rfl | rfl <;> exact hplain
      | union h8 =>
        dsimp only
        rcases pickBranch_twin hw hr h7 h8 with ⟨g1, g2⟩ | ⟨j, u, u', g1, g2, g3⟩
        · rw [g1, g2]
        · rw [g1, g2]
          dsimp only
          rw [resolve_twin hw hr hdv d a b u u' h7 g3]
      | _ => exact hplain
    | _ => simp only [resolve]
  | .record ds, w, w', r, r', h1, h2 => by
    cases hw _ _ h1 with
    | prim hp =>
      simp only [primitives, List.mem_cons, List.not_mem_nil, or_false] at hp
      rcases hp with rfl | rfl | rfl | rfl | rfl | rfl | rfl | rfl <;> simp only [resolve]
    | ref _ _ _ _ _ =>
      simp only [resolve]
      refine intoReader_twin hw hr h1 (fun r r' h => defAs_twin hw hr h1 (fun a a' b b' ha hb => ?_) h) h2
      cases ha <;> cases hb <;> try rfl
      rename_i fs fs' h3 gs gs' h4
      dsimp only
      rw [each_length h4, resolveFields_twin hw hr hdv ds fs fs' gs gs' _ h3 h4]
      split
      · rfl
      · rw [fillDefaults_twin hdv h4]
    | _ => simp only [resolve]
theorem resolveItems_twin (hw : Bisim we we' W) (hr : Bisim re re' R) (hdv : ∀ f f', FieldTwin R f f' → f.dflt.isSome → dv f = dv' f') :
    ∀ (ds : List Datum) (w w' r r' : Ty), W w w' → R r r' → resolveItems drop dv we re ds w r = resolveItems drop dv' we' re' ds w' r'
  | [], w, w', r, r', h1, h2 => by simp only [resolveItems]
  | d :: ds, w, w', r, r', h1, h2 => by
    simp only [resolveItems, resolve_twin hw hr hdv d w w' r r' h1 h2, resolveItems_twin hw hr hdv ds w w' r r' h1 h2]
theorem resolveEntries_twin (hw : Bisim we we' W) (hr : Bisim re re' R) (hdv : ∀ f f', FieldTwin R f f' → f.dflt.isSome → dv f = dv' f') :
    ∀ (ds : List (List Byte × Datum)) (w w' r r' : Ty), W w w' → R r r' →
      resolveEntries drop dv we re ds w r = resolveEntries drop dv' we' re' ds w' r'
  | [], w, w', r, r', h1, h2 => by simp only [resolveEntries]
  | (k, d) :: ds, w, w', r, r', h1, h2 => by
    simp only [resolveEntries, resolve_twin hw hr hdv d w w' r r' h1 h2, resolveEntries_twin hw hr hdv ds w w' r r' h1 h2]
theorem resolveFields_twin (hw : Bisim we we' W) (hr : Bisim re re' R) (hdv : ∀ f f', FieldTwin R f f' → f.dflt.isSome → dv f = dv' f') :
    ∀ (ds : List Datum) (ws ws' rs rs' : List Field) (slots : List (Option Val)), Each (FieldTwin W) ws ws' → Each (FieldTwin R) rs rs' →
      resolveFields drop dv we re ds ws rs slots = resolveFields drop dv' we' re' ds ws' rs' slots
  | [], ws, ws', rs, rs', slots, h1, h2 => by
    cases h1 <;> simp only [resolveFields]
  | d :: ds, ws, ws', rs, rs', slots, h1, h2 => by
    cases h1 with
    | nil => simp only [resolveFields]
    | cons h3 h4 =>
      simp only [resolveFields, fieldByName, h3.name]
      rcases fieldByName_twin h2 _ 0 with ⟨g1, g2⟩ | ⟨j, f, f', g1, g2, g3⟩
      · rw [g1, g2]
        simp only [resolveFields_twin hw hr hdv ds _ _ rs rs' slots h4 h2]
      · rw [g1, g2]
        dsimp only
        rw [readable_twin hw hr h3.ty g3.ty, resolve_twin hw hr hdv d _ _ _ _ h3.ty g3.ty]
        split
        · split
          · rfl
          · exact resolveFields_twin hw hr hdv ds _ _ rs rs' _ h4 h2
        · rfl
end
end

end Verif
