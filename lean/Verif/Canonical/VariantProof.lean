import Verif.Canonical.FormProof
import Verif.Parser.Inv
import Verif.Spec.Variant
/-
Documents that are variants of each other describe alike schemas.
-/
set_option linter.unusedSimpArgs false
set_option linter.unusedVariables false
namespace Verif
open Spec

/-- Fields of the same names and types. -/
def SameFields (fs fs' : List PField) : Prop := fs.map (fun f => (f.name, f.ty.erase)) = fs'.map (fun f => (f.name, f.ty.erase))

/-- Definitions alike in what matters. -/
inductive SameKindDef : PKind → PKind → Prop
  | record {fs fs' doc doc'} : SameFields fs fs' → SameKindDef (.record fs doc) (.record fs' doc')
  | enum {ss doc doc' d d'} : SameKindDef (.enum ss doc d) (.enum ss doc' d')
  | fixed {n} : SameKindDef (.fixed n) (.fixed n)

def SameDef (d d' : PDef) : Prop := d.name = d'.name ∧ SameKindDef d.kind d'.kind

theorem each_append {α β : Type} {R : α → β → Prop} {a b c d} (h : Each R a b) (h' : Each R c d) : Each R (a ++ c) (b ++ d) := by
  induction h with
  | nil => exact h'
  | cons h1 _ ih => exact .cons h1 ih

theorem each_mem {α β : Type} {R : α → β → Prop} {a b} (h : Each R a b) : ∀ x ∈ a, ∃ y ∈ b, R x y := by
  induction h with
  | nil => simp
  | cons h1 _ ih =>
    intro x hx
    rcases List.mem_cons.1 hx with rfl | hx
    · exact ⟨_, by simp, h1⟩
    · obtain ⟨y, hy, hr⟩ := ih x hx
      exact ⟨y, by simp [hy], hr⟩

theorem nameOf_same {enc : Str} {o o' : List (Str × Json)} {q q' : QName} (h1 : SameAttr o o' "name")
    (h2 : SameAttr o o' "namespace") (h : NameOf enc o q) (h' : NameOf enc o' q') : q = q' := by
  refine nameOf_unique h ?_
  obtain ⟨a, b, h3, h4, h5⟩ := h'
  refine ⟨a, b, h1.trans h3, ?_, h5⟩
  unfold OptAttr at h4 ⊢
  rw [show o.lookup "namespace".toList = o'.lookup "namespace".toList from h2]
  exact h4

theorem fixedSize_same {o o' : List (Str × Json)} {a b : Int} (h1 : SameAttr o o' "size") (h : FixedSize o a)
    (h' : FixedSize o' b) : a = b := by
  refine fixedSize_unique h ?_
  unfold FixedSize at h' ⊢
  rw [show o.lookup "size".toList = o'.lookup "size".toList from h1]
  exact h'

theorem variant_describes {j j' : Json} (h : Variant j j') : ∀ {short short' name name' enc t t' ds ds'},
    Describes short name enc j t ds → Describes short' name' enc j' t' ds' → t.erase = t'.erase ∧ Each SameDef ds ds' := by
  refine Variant.rec
    (motive_1 := fun j j' _ => ∀ {short short' name name' enc t t' ds ds'},
      Describes short name enc j t ds → Describes short' name' enc j' t' ds' → t.erase = t'.erase ∧ Each SameDef ds ds')
    (motive_2 := fun js js' _ => ∀ {short short' name name' enc ts ts' ds ds'},
      DescribesAll short name enc js ts ds → DescribesAll short' name' enc js' ts' ds' →
      PTy.erases ts = PTy.erases ts' ∧ Each SameDef ds ds')
    (motive_3 := fun js js' _ => ∀ {short short' enc fs fs' ds ds'},
      DescribesFields short enc js fs ds → DescribesFields short' enc js' fs' ds' →
      SameFields fs fs' ∧ Each SameDef ds ds')
    ?_ ?_ ?_ ?_ ?_ ?_ ?_ ?_ ?_ ?_ ?_ ?_ ?_ ?_ h
  · intro s short short' name name' enc t t' ds ds' h1 h2
    cases h1 with
    | prim hp =>
      cases h2 with
      | prim hp' => rw [prim_unique hp hp']; exact ⟨rfl, .nil⟩
      | named hn => exact absurd hp (hn _)
    | named hn hq =>
      cases h2 with
      | prim hp' => exact absurd hp' (hn _)
      | named hn' hq' => rw [fullName_unique hq hq']; exact ⟨rfl, .nil⟩
  · intro o s p hp ho short short' name name' enc t t' ds ds' h1 h2
    obtain ⟨rfl, rfl⟩ := h1.prim_inv hp ho
    cases h2 with
    | prim hp' => rw [prim_unique hp hp']; exact ⟨rfl, .nil⟩
    | named hn => exact absurd hp (hn _)
  · intro o s p hp ho short short' name name' enc t t' ds ds' h1 h2
    obtain ⟨rfl, rfl⟩ := h2.prim_inv hp ho
    cases h1 with
    | prim hp' => rw [prim_unique hp hp']; exact ⟨rfl, .nil⟩
    | named hn => exact absurd hp (hn _)
  · intro o o' s p hp ho ho' short short' name name' enc t t' ds ds' h1 h2
    obtain ⟨rfl, rfl⟩ := h1.prim_inv hp ho
    obtain ⟨rfl, rfl⟩ := h2.prim_inv hp ho'
    exact ⟨rfl, .nil⟩
  · intro js js' _ ih short short' name name' enc t t' ds ds' h1 h2
    cases h1 with
    | union h1 =>
      cases h2 with
      | union h2 =>
        obtain ⟨a, b⟩ := ih h1 h2
        exact ⟨by simp only [PTy.erase, a], b⟩
  · intro o o' j j' ho ho' hi hi' _ ih short short' name name' enc t t' ds ds' h1 h2
    obtain ⟨a, u, e1, e2, rfl⟩ := h1.array_inv ho
    obtain ⟨a', u', e1', e2', rfl⟩ := h2.array_inv ho'
    rw [hi] at e1; cases e1
    rw [hi'] at e1'; cases e1'
    obtain ⟨a, b⟩ := ih e2 e2'
    exact ⟨by simp only [PTy.erase, a], b⟩
  · intro o o' j j' ho ho' hi hi' _ ih short short' name name' enc t t' ds ds' h1 h2
    obtain ⟨a, u, e1, e2, rfl⟩ := h1.map_inv ho
    obtain ⟨a', u', e1', e2', rfl⟩ := h2.map_inv ho'
    rw [hi] at e1; cases e1
    rw [hi'] at e1'; cases e1'
    obtain ⟨a, b⟩ := ih e2 e2'
    exact ⟨by simp only [PTy.erase, a], b⟩
  · intro o o' ho ho' hn hns hs short short' name name' enc t t' ds ds' h1 h2
    obtain ⟨q, qs, ss, doc, dflt, e1, e2, rfl, rfl⟩ := h1.enum_inv ho
    obtain ⟨q', qs', ss', doc', dflt', e1', e2', rfl, rfl⟩ := h2.enum_inv ho'
    obtain rfl := nameOf_same hn hns e1 e1'
    have hs2 := (e2.symm.trans hs).trans e2'
    simp only [Option.some.injEq, Json.arr.injEq] at hs2
    obtain rfl := strs_inj hs2
    exact ⟨rfl, .cons ⟨rfl, .enum⟩ .nil⟩
  · intro o o' ho ho' hn hns hs short short' name name' enc t t' ds ds' h1 h2
    obtain ⟨q, qs, size, e1, e2, rfl, rfl⟩ := h1.fixed_inv ho
    obtain ⟨q', qs', size', e1', e2', rfl, rfl⟩ := h2.fixed_inv ho'
    obtain rfl := nameOf_same hn hns e1 e1'
    obtain rfl := fixedSize_same hs e2 e2'
    exact ⟨rfl, .cons ⟨rfl, .fixed⟩ .nil⟩
  · intro o o' js js' ho ho' hn hns hf hf' _ ih short short' name name' enc t t' ds ds' h1 h2
    obtain ⟨q, qs, ks, fs, doc, d1, e1, e2, e3, rfl, rfl⟩ := h1.record_inv ho
    obtain ⟨q', qs', ks', fs', doc', d1', e1', e2', e3', rfl, rfl⟩ := h2.record_inv ho'
    obtain rfl := nameOf_same hn hns e1 e1'
    rw [hf] at e2; cases e2
    rw [hf'] at e2'; cases e2'
    obtain ⟨a, b⟩ := ih e3 e3'
    exact ⟨rfl, each_append b (.cons ⟨rfl, .record a⟩ .nil)⟩
  · intro short short' name name' enc ts ts' ds ds' h1 h2
    cases h1; cases h2; exact ⟨rfl, .nil⟩
  · intro j j' js js' _ _ ih1 ih2 short short' name name' enc ts ts' ds ds' h1 h2
    cases h1 with
    | cons a b =>
      cases h2 with
      | cons a' b' =>
        obtain ⟨c1, c2⟩ := ih1 a a'
        obtain ⟨d1, d2⟩ := ih2 b b'
        exact ⟨by simp only [PTy.erases, c1, d1], each_append c2 d2⟩
  · intro short short' enc fs fs' ds ds' h1 h2
    cases h1; cases h2; exact ⟨rfl, .nil⟩
  · intro o o' j j' js js' hn ht ht' _ _ ih1 ih2 short short' enc fs fs' ds ds' h1 h2
    cases h1 with
    | cons a1 a2 a3 a4 a5 a6 a7 =>
      cases h2 with
      | cons b1 b2 b3 b4 b5 b6 b7 =>
        rw [ht] at a2; cases a2
        rw [ht'] at b2; cases b2
        have hnm := (a1.symm.trans hn).trans b1
        cases hnm
        obtain ⟨c1, c2⟩ := ih1 a3 b3
        obtain ⟨d1, d2⟩ := ih2 a7 b7
        refine ⟨?_, each_append c2 d2⟩
        unfold SameFields at d1 ⊢
        simp only [List.map_cons, c1, d1]

mutual
/-- A type is like itself in two tables that give its names their own definitions. -/
theorem alikeTy_self {e e' : Env} : ∀ (t : Ty), (∀ q, TyMentions t q → ∃ d d', e.find q = some d ∧ e'.find q = some d' ∧
    d.name = d'.name) → AlikeTy e e' t t
  | .null, _ => .prim (by simp [primitives])
  | .bool, _ => .prim (by simp [primitives])
  | .int, _ => .prim (by simp [primitives])
  | .long, _ => .prim (by simp [primitives])
  | .float, _ => .prim (by simp [primitives])
  | .double, _ => .prim (by simp [primitives])
  | .bytes, _ => .prim (by simp [primitives])
  | .string, _ => .prim (by simp [primitives])
  | .array t, h => .array (alikeTy_self t fun q hq => h q (.array hq))
  | .map t, h => .map (alikeTy_self t fun q hq => h q (.map hq))
  | .union ts, h => .union (alikeTys_self ts fun t ht q hq => h q (.union ht hq))
  | .ref q, h => by
    obtain ⟨d, d', h1, h2, h3⟩ := h q .ref
    exact .ref h1 h2 h3
theorem alikeTys_self {e e' : Env} : ∀ (ts : List Ty), (∀ t ∈ ts, ∀ q, TyMentions t q → ∃ d d', e.find q = some d ∧
    e'.find q = some d' ∧ d.name = d'.name) → AlikeTys e e' ts ts
  | [], _ => .nil
  | t :: ts, h => .cons (alikeTy_self t fun q hq => h t (by simp) q hq) (alikeTys_self ts fun u hu q hq => h u (by simp [hu]) q hq)
end

theorem alikeFields_same {e e' : Env} : ∀ (fs fs' : List PField), SameFields fs fs' →
    (∀ f ∈ fs, ∀ q, TyMentions f.ty.erase q → ∃ d d', e.find q = some d ∧ e'.find q = some d' ∧ d.name = d'.name) →
    AlikeFields e e' (fs.map PField.erase) (fs'.map PField.erase)
  | [], fs', h, _ => by
    cases fs' with
    | nil => exact .nil
    | cons => simp [SameFields] at h
  | f :: fs, fs', h, hm => by
    cases fs' with
    | nil => simp [SameFields] at h
    | cons f' fs' =>
      simp only [SameFields, List.map_cons, List.cons.injEq, Prod.mk.injEq] at h
      refine .cons h.1.1 ?_ (alikeFields_same fs fs' h.2 fun g hg => hm g (by simp [hg]))
      show AlikeTy e e' f.ty.erase f'.ty.erase
      rw [← h.1.2]
      exact alikeTy_self _ (hm f (by simp))

theorem sameFields_mem {fs fs' : List PField} (h : SameFields fs fs') : ∀ f ∈ fs, ∃ f' ∈ fs', f'.ty.erase = f.ty.erase := by
  intro f hf
  have : (f.name, f.ty.erase) ∈ fs'.map (fun f => (f.name, f.ty.erase)) := by
    rw [← h]; exact List.mem_map.2 ⟨f, hf, rfl⟩
  obtain ⟨f', h1, h2⟩ := List.mem_map.1 this
  simp only [Prod.mk.injEq] at h2
  exact ⟨f', h1, h2.2⟩

end Verif
