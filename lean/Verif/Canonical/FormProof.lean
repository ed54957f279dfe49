import Verif.Canonical.Print
import Verif.Spec.Alike
import Verif.Spec.Encoding
/-
The canonical form exists, and it decides whether two schemas are alike.
-/
set_option linter.unusedSimpArgs false
set_option linter.unusedVariables false
namespace Verif
open Spec

/-! ### the bound -/

/-- `g` agrees with `f` where `f` has a result. -/
def Canonizer.le (f g : Canonizer) : Prop := ∀ t vis r, f t vis = some r → g t vis = some r

theorem canonMembers_le {f g : Canonizer} (h : f.le g) : ∀ (ts : List Ty) vis r,
    canonMembers f ts vis = some r → canonMembers g ts vis = some r := by
  intro ts
  induction ts with
  | nil => intro vis r hr; exact hr
  | cons t ts ih =>
    intro vis r hr
    simp only [canonMembers] at hr ⊢
    split at hr
    · cases hr
    rename_i c v hf
    split at hr
    · cases hr
    rename_i cs v' hm
    rw [h _ _ _ hf]
    dsimp only
    rw [ih _ _ hm]
    exact hr

theorem canonFields_le {f g : Canonizer} (h : f.le g) : ∀ (ts : List Field) vis r,
    canonFields f ts vis = some r → canonFields g ts vis = some r := by
  intro ts
  induction ts with
  | nil => intro vis r hr; exact hr
  | cons t ts ih =>
    intro vis r hr
    simp only [canonFields] at hr ⊢
    split at hr
    · cases hr
    rename_i c v hf
    split at hr
    · cases hr
    rename_i cs v' hm
    rw [h _ _ _ hf]
    dsimp only
    rw [ih _ _ hm]
    exact hr

theorem canonDef_le {f g : Canonizer} (h : f.le g) (d : Def) (vis : List Str) (r) (hr : canonDef f d vis = some r) :
    canonDef g d vis = some r := by
  unfold canonDef at hr ⊢
  split at hr
  · rename_i hv; rw [if_pos hv]; exact hr
  rename_i hv
  rw [if_neg hv]
  cases hk : d.kind with
  | record fs =>
    simp only [hk] at hr
    split at hr
    · cases hr
    rename_i cs v' hm
    dsimp only
    rw [canonFields_le h _ _ _ hm]
    exact hr
  | enum => simpa only [hk] using hr
  | fixed => simpa only [hk] using hr

theorem canonTy_succ (env : Env) : ∀ n, (canonTy env n).le (canonTy env (n + 1)) := by
  intro n
  induction n with
  | zero => intro t vis r h; simp [canonTy] at h
  | succ n ih =>
    intro t vis r h
    cases t with
    | union ts =>
      rw [canonTy] at h ⊢
      split at h
      · cases h
      rename_i hm
      rw [canonMembers_le ih _ _ _ hm]
      exact h
    | array t =>
      rw [canonTy] at h ⊢
      split at h
      · cases h
      rename_i hm
      rw [ih _ _ _ hm]
      exact h
    | map t =>
      rw [canonTy] at h ⊢
      split at h
      · cases h
      rename_i hm
      rw [ih _ _ _ hm]
      exact h
    | ref q =>
      rw [canonTy] at h ⊢
      split at h
      · cases h
      rename_i hd
      exact canonDef_le ih _ _ _ h
    | _ => simpa only [canonTy] using h

theorem canonTy_le (env : Env) {n m : Nat} (h : n ≤ m) : (canonTy env n).le (canonTy env m) := by
  induction m with
  | zero => have : n = 0 := by omega
            subst this; intro t vis r h; exact h
  | succ m ih =>
    by_cases hn : n = m + 1
    · subst hn; intro t vis r h; exact h
    · intro t vis r hr
      exact canonTy_succ env m t vis r (ih (by omega) t vis r hr)

theorem canonTy_unique {env : Env} {n m t vis r r'} (h : canonTy env n t vis = some r) (h' : canonTy env m t vis = some r') :
    r = r' := by
  have h1 := canonTy_le env (Nat.le_max_left n m) _ _ _ h
  have h2 := canonTy_le env (Nat.le_max_right n m) _ _ _ h'
  rw [h1] at h2
  exact Option.some.inj h2

/-! ### the form exists -/

/-- A set of names that are defined and that contains what their fields mention. -/
structure ClosedSet (env : Env) (P : QName → Prop) : Prop where
  found : ∀ q, P q → ∃ d, env.find q = some d
  fields : ∀ q, P q → ∀ d fs, env.find q = some d → d.kind = .record fs → ∀ f ∈ fs, ∀ q', TyMentions f.ty q' → P q'

/-- Definitions whose names have not been visited. -/
def unvisited (env : Env) (vis : List Str) : Nat := (env.filter fun x => x.2.name.str ∉ vis).length

theorem unvisited_le {env : Env} {vis vis' : List Str} (h : ∀ x ∈ vis, x ∈ vis') : unvisited env vis' ≤ unvisited env vis := by
  apply filter_length_le
  intro x hx
  simp only [decide_eq_true_eq] at hx ⊢
  exact fun hv => hx (h _ hv)

theorem unvisited_lt {env : Env} {vis : List Str} {q d} (hq : env.find q = some d) (h : d.name.str ∉ vis) :
    unvisited env (d.name.str :: vis) < unvisited env vis := by
  apply filter_length_lt (a := (q, d))
  · intro x hx
    simp only [decide_eq_true_eq, List.mem_cons, not_or] at hx ⊢
    exact hx.2
  · exact Env.find_mem hq
  · simp
  · simpa using h

theorem exists_canon {env : Env} {P : QName → Prop} (hP : ClosedSet env P) {M : Nat} (hM : FieldsLe env M) :
    ∀ n k t vis, unvisited env vis ≤ k → t.size + k * (M + 1) ≤ n → (∀ q, TyMentions t q → P q) →
      ∃ c vis', canonTy env n t vis = some (c, vis') ∧ ∀ x ∈ vis, x ∈ vis' := by
  intro n
  induction n with
  | zero =>
    intro k t vis _ hn _
    have : 0 < t.size := by cases t <;> simp [Ty.size]
    omega
  | succ n ih =>
    intro k t vis hk hn hm
    cases t with
    | array t =>
      simp only [Ty.size] at hn
      obtain ⟨c, v, h1, h2⟩ := ih k t vis hk (by omega) (fun q hq => hm q (.array hq))
      exact ⟨_, v, by rw [canonTy, h1], h2⟩
    | map t =>
      simp only [Ty.size] at hn
      obtain ⟨c, v, h1, h2⟩ := ih k t vis hk (by omega) (fun q hq => hm q (.map hq))
      exact ⟨_, v, by rw [canonTy, h1], h2⟩
    | union ts =>
      simp only [Ty.size] at hn
      have key : ∀ (us : List Ty) vis, unvisited env vis ≤ k → (∀ u ∈ us, u ∈ ts) →
          ∃ cs vis', canonMembers (canonTy env n) us vis = some (cs, vis') ∧ ∀ x ∈ vis, x ∈ vis' := by
        intro us
        induction us with
        | nil => intro vis _ _; exact ⟨[], vis, rfl, fun x hx => hx⟩
        | cons u us ihu =>
          intro vis hk hu
          have hs := size_mem (hu u (by simp))
          obtain ⟨c, v, h1, h2⟩ := ih k u vis hk (by omega) (fun q hq => hm q (.union (hu u (by simp)) hq))
          obtain ⟨cs, v', h3, h4⟩ := ihu v (Nat.le_trans (unvisited_le h2) hk) fun u hx => hu u (by simp [hx])
          exact ⟨c :: cs, v', by simp only [canonMembers, h1, h3], fun x hx => h4 x (h2 x hx)⟩
      obtain ⟨cs, v, h1, h2⟩ := key ts vis hk fun u h => h
      exact ⟨_, v, by rw [canonTy, h1], h2⟩
    | ref q =>
      simp only [Ty.size] at hn
      have hq := hm q .ref
      obtain ⟨d, hd⟩ := hP.found q hq
      rw [canonTy, hd]
      dsimp only
      unfold canonDef
      by_cases hv : d.name.str ∈ vis
      · rw [if_pos hv]; exact ⟨_, vis, rfl, fun x hx => hx⟩
      rw [if_neg hv]
      cases hkd : d.kind with
      | enum ss dflt => exact ⟨_, _, rfl, fun x hx => by simp [hx]⟩
      | fixed size => exact ⟨_, _, rfl, fun x hx => by simp [hx]⟩
      | record fs =>
        have hlt := unvisited_lt hd hv
        obtain ⟨k', rfl⟩ : ∃ k', k = k' + 1 := ⟨k - 1, by omega⟩
        have hn' : M + 1 + k' * (M + 1) ≤ n := by
          have : (k' + 1) * (M + 1) = k' * (M + 1) + (M + 1) := Nat.succ_mul _ _
          omega
        have key : ∀ (us : List Field) vis, unvisited env vis ≤ k' → (∀ u ∈ us, u ∈ fs) →
            ∃ cs vis', canonFields (canonTy env n) us vis = some (cs, vis') ∧ ∀ x ∈ vis, x ∈ vis' := by
          intro us
          induction us with
          | nil => intro vis _ _; exact ⟨[], vis, rfl, fun x hx => hx⟩
          | cons u us ihu =>
            intro vis hk hu
            have hs := hM q d fs u hd hkd (hu u (by simp))
            obtain ⟨c, v, h1, h2⟩ := ih k' u.ty vis hk (by omega)
              (fun q' hq' => hP.fields q hq d fs hd hkd u (hu u (by simp)) q' hq')
            obtain ⟨cs, v', h3, h4⟩ := ihu v (Nat.le_trans (unvisited_le h2) hk) fun u hx => hu u (by simp [hx])
            exact ⟨_, v', by simp only [canonFields, h1, h3]; rfl, fun x hx => h4 x (h2 x hx)⟩
        obtain ⟨cs, v, h1, h2⟩ := key fs (d.name.str :: vis) (by omega) fun u h => h
        dsimp only
        rw [h1]
        exact ⟨_, v, rfl, fun x hx => h2 x (by simp [hx])⟩
    | _ => exact ⟨_, vis, by rw [canonTy], fun x hx => hx⟩

/-- What can be reached is closed. -/
theorem reachable_closed {s : Schema} (h : ∀ q, Reachable s q → ∃ d, s.env.find q = some d) :
    ClosedSet s.env (Reachable s) :=
  ⟨h, fun q hq d fs hd hk f hf q' hq' => .field hq hd hk hf hq'⟩

theorem canonical_exists {s : Schema} (h : ∀ q, Reachable s q → ∃ d, s.env.find q = some d) :
    ∃ c vis, canonTy s.env (s.root.size + s.env.length * (s.env.fsize + 1)) s.root [] = some (c, vis) := by
  have hlen : unvisited s.env [] ≤ s.env.length := List.length_filter_le _ _
  obtain ⟨c, v, h1, -⟩ := exists_canon (reachable_closed h) (fieldsLe_fsize s.env) _ s.env.length s.root [] hlen
    (Nat.le_refl _) fun q hq => .root hq
  exact ⟨c, v, h1⟩

theorem canonicalForm_iff {s : Schema} {c : Canon} (h : ∀ q, Reachable s q → ∃ d, s.env.find q = some d) :
    canonicalForm s = some c ↔ ∃ n vis, canonTy s.env n s.root [] = some (c, vis) := by
  obtain ⟨c', v, h1⟩ := canonical_exists h
  unfold canonicalForm
  rw [h1]
  simp only [Option.map_some, Option.some.injEq]
  constructor
  · rintro rfl; exact ⟨_, _, h1⟩
  · rintro ⟨n, vis, h2⟩
    have := canonTy_unique h1 h2
    simp only [Prod.mk.injEq] at this
    exact this.1

/-! ### alike schemas have the same form -/

/-- Definitions of the same name are alike. -/
def AlikeDefs (e e' : Env) (P : QName → Prop) : Prop :=
  ∀ q, P q → ∀ d, e.find q = some d → ∀ q' d', e'.find q' = some d' → d'.name = d.name → AlikeKind e e' d.kind d'.kind

theorem canon_alike {e e' : Env} {P : QName → Prop} (hP : ClosedSet e P) (hA : AlikeDefs e e' P) :
    ∀ n t t' vis, AlikeTy e e' t t' → (∀ q, TyMentions t q → P q) → canonTy e n t vis = canonTy e' n t' vis := by
  intro n
  induction n with
  | zero => intro t t' vis _ _; rfl
  | succ n ih =>
    intro t t' vis ha hm
    cases ha with
    | prim ht =>
      simp only [primitives, List.mem_cons, List.not_mem_nil, or_false] at ht
      rcases ht with rfl | rfl | rfl | rfl | rfl | rfl | rfl | rfl <;> rfl
    | array h => rw [canonTy, canonTy, ih _ _ _ h fun q hq => hm q (.array hq)]
    | map h => rw [canonTy, canonTy, ih _ _ _ h fun q hq => hm q (.map hq)]
    | @union ts ts' h =>
      have key : ∀ (us us' : List Ty) vis, AlikeTys e e' us us' → (∀ u ∈ us, u ∈ ts) →
          canonMembers (canonTy e n) us vis = canonMembers (canonTy e' n) us' vis := by
        intro us
        induction us with
        | nil => intro us' vis h _; cases h; rfl
        | cons u us ihu =>
          intro us' vis h hu
          cases h with
          | cons h1 h2 =>
            simp only [canonMembers]
            rw [ih _ _ _ h1 fun q hq => hm q (.union (hu u (by simp)) hq)]
            split
            · rfl
            · rw [ihu _ _ h2 fun u hx => hu u (by simp [hx])]
      rw [canonTy, canonTy, key ts ts' vis h fun u hu => hu]
    | @ref q q' d d' hd hd' hn =>
      rw [canonTy, canonTy, hd, hd']
      dsimp only
      have hk := hA q (hm q .ref) d hd q' d' hd' hn.symm
      unfold canonDef
      rw [hn]
      by_cases hv : d'.name.str ∈ vis
      · rw [if_pos hv, if_pos hv]
      rw [if_neg hv, if_neg hv]
      cases hkd : d.kind with
      | enum ss dflt => rw [hkd] at hk; generalize d'.kind = k' at hk; cases hk; rfl
      | fixed size => rw [hkd] at hk; generalize d'.kind = k' at hk; cases hk; rfl
      | record fs =>
        have hfs := hP.fields q (hm q .ref) d fs hd hkd
        rw [hkd] at hk
        generalize d'.kind = k' at hk
        cases hk with
        | @record _ fs' hf =>
          have key : ∀ (us us' : List Field) vis, AlikeFields e e' us us' → (∀ u ∈ us, u ∈ fs) →
              canonFields (canonTy e n) us vis = canonFields (canonTy e' n) us' vis := by
            intro us
            induction us with
            | nil => intro us' vis h _; cases h; rfl
            | cons u us ihu =>
              intro us' vis h hu
              cases h with
              | cons h0 h1 h2 =>
                simp only [canonFields]
                rw [ih _ _ _ h1 fun q hq => hfs u (hu u (by simp)) q hq, h0]
                split
                · rfl
                · rw [ihu _ _ h2 fun u hx => hu u (by simp [hx])]
          dsimp only
          rw [key fs fs' _ hf fun u hu => hu]

/-! ### equal forms mean alike schemas -/

/-- Names of primitive types. -/
def primitiveNames : List Str :=
  ["null".toList, "boolean".toList, "int".toList, "long".toList, "float".toList, "double".toList, "bytes".toList,
    "string".toList]

/-- No definition is called like a primitive type, and the last part of a name has no dot. -/
structure NamesPlain (env : Env) : Prop where
  plain : ∀ q d, env.find q = some d → '.' ∉ d.name.name
  notPrim : ∀ q d, env.find q = some d → d.name.str ∉ primitiveNames

theorem lastDot_inj {a b : Str} {x y : Str} (hx : '.' ∉ x) (hy : '.' ∉ y) (h : a ++ '.' :: x = b ++ '.' :: y) :
    a = b ∧ x = y := by
  rcases Nat.lt_trichotomy a.length b.length with hl | hl | hl
  · exfalso
    have : (a ++ '.' :: x)[b.length]? = some '.' := by rw [h]; simp
    rw [List.getElem?_append_right (by omega)] at this
    obtain ⟨m, hm⟩ : ∃ m, b.length - a.length = m + 1 := ⟨b.length - a.length - 1, by omega⟩
    rw [hm, List.getElem?_cons_succ] at this
    exact hx (List.mem_of_getElem? this)
  · have := List.append_inj h hl
    exact ⟨this.1, (List.cons.inj this.2).2⟩
  · exfalso
    have : (b ++ '.' :: y)[a.length]? = some '.' := by rw [← h]; simp
    rw [List.getElem?_append_right (by omega)] at this
    obtain ⟨m, hm⟩ : ∃ m, a.length - b.length = m + 1 := ⟨a.length - b.length - 1, by omega⟩
    rw [hm, List.getElem?_cons_succ] at this
    exact hy (List.mem_of_getElem? this)

theorem qname_str_inj {q q' : QName} (h : '.' ∉ q.name) (h' : '.' ∉ q'.name) (he : q.str = q'.str) : q = q' := by
  obtain ⟨ns, n⟩ := q
  obtain ⟨ns', n'⟩ := q'
  unfold QName.str at he
  simp only at he h h'
  by_cases h1 : ns = []
  · by_cases h2 : ns' = []
    · rw [if_pos h1, if_pos h2] at he; rw [h1, h2, he]
    · rw [if_pos h1, if_neg h2] at he
      exact absurd (he ▸ (by simp : '.' ∈ ns' ++ '.' :: n')) h
  · by_cases h2 : ns' = []
    · rw [if_neg h1, if_pos h2] at he
      exact absurd (he ▸ (by simp : '.' ∈ ns ++ '.' :: n)) h'
    · rw [if_neg h1, if_neg h2] at he
      obtain ⟨rfl, rfl⟩ := lastDot_inj h h' he
      rfl

/-- What is known of a visited name: it stands for alike definitions, and what they mention has been
visited. -/
def Fact (e e' : Env) (V : List Str) (x : Str) : Prop :=
  ∃ q d q' d', e.find q = some d ∧ e'.find q' = some d' ∧ d.name.str = x ∧ d.name = d'.name ∧
    AlikeKind e e' d.kind d'.kind ∧
    ∀ fs, d.kind = .record fs → ∀ f ∈ fs, ∀ q2, TyMentions f.ty q2 → ∃ d2, e.find q2 = some d2 ∧ d2.name.str ∈ V

/-- The names mentioned have been visited. -/
def Seen (e : Env) (V : List Str) (t : Ty) : Prop := ∀ q, TyMentions t q → ∃ d, e.find q = some d ∧ d.name.str ∈ V

theorem Seen.mono {e : Env} {V V' : List Str} {t} (h : Seen e V t) (hs : ∀ x ∈ V, x ∈ V') : Seen e V' t :=
  fun q hq => let ⟨d, h1, h2⟩ := h q hq; ⟨d, h1, hs _ h2⟩

theorem Fact.mono {e e' : Env} {V V' : List Str} {x} (h : Fact e e' V x) (hs : ∀ x ∈ V, x ∈ V') : Fact e e' V' x := by
  obtain ⟨q, d, q', d', h1, h2, h3, h4, h5, h6⟩ := h
  exact ⟨q, d, q', d', h1, h2, h3, h4, h5, fun fs hk f hf q2 hq => let ⟨d2, h7, h8⟩ := h6 fs hk f hf q2 hq; ⟨d2, h7, hs _ h8⟩⟩

/-- What two runs with the same outcome tell. -/
structure Told (e e' : Env) (vis v v' : List Str) : Prop where
  same : v = v'
  grow : ∀ x ∈ vis, x ∈ v
  facts : ∀ x ∈ v, x ∈ vis ∨ Fact e e' v x

theorem Told.refl (e e' : Env) (v : List Str) : Told e e' v v v := ⟨rfl, fun _ h => h, fun _ h => .inl h⟩

theorem Told.trans {e e' : Env} {a b b' c c' : List Str} (h : Told e e' a b b') (h2 : Told e e' b c c') : Told e e' a c c' :=
  ⟨h2.same, fun x hx => h2.grow x (h.grow x hx), fun x hx => by
    rcases h2.facts x hx with h3 | h3
    · rcases h.facts x h3 with h4 | h4
      · exact .inl h4
      · exact .inr (h4.mono h2.grow)
    · exact .inr h3⟩

theorem prim_form {e : Env} {n : Nat} {t : Ty} {vis r} (h : canonTy e n t vis = some r) :
    (t ∈ primitives ∧ ∃ s ∈ primitiveNames, r = (.str s, vis)) ∨
    (∃ ts, t = .union ts) ∨ (∃ u, t = .array u) ∨ (∃ u, t = .map u) ∨ ∃ q, t = .ref q := by
  cases n with
  | zero => simp [canonTy] at h
  | succ n =>
    cases t with
    | union ts => exact .inr (.inl ⟨_, rfl⟩)
    | array u => exact .inr (.inr (.inl ⟨_, rfl⟩))
    | map u => exact .inr (.inr (.inr (.inl ⟨_, rfl⟩)))
    | ref q => exact .inr (.inr (.inr (.inr ⟨_, rfl⟩)))
    | _ =>
      refine .inl ⟨by simp [primitives], ?_⟩
      rw [canonTy] at h
      exact ⟨_, by simp [primitiveNames], (Option.some.inj h).symm⟩

/-- The shape of the form of a reference. -/
theorem ref_form {e : Env} {n : Nat} {q : QName} {vis r} (h : canonTy e n (.ref q) vis = some r) :
    ∃ k d, n = k + 1 ∧ e.find q = some d ∧
      ((d.name.str ∈ vis ∧ r = (.str d.name.str, vis)) ∨
       (d.name.str ∉ vis ∧ ((∃ fs cs v, d.kind = .record fs ∧ canonFields (canonTy e k) fs (d.name.str :: vis) = some (cs, v) ∧
          r = (.obj ([("name".toList, .str d.name.str), ("type".toList, .str "record".toList)] ++ nonEmpty "fields".toList cs), v)) ∨
        (∃ ss dflt, d.kind = .enum ss dflt ∧
          r = (.obj ([("name".toList, .str d.name.str), ("type".toList, .str "enum".toList)] ++
            nonEmpty "symbols".toList (ss.map .str)), d.name.str :: vis)) ∨
        ∃ size, d.kind = .fixed size ∧
          r = (.obj [("name".toList, .str d.name.str), ("type".toList, .str "fixed".toList), ("size".toList, .num size)],
            d.name.str :: vis)))) := by
  cases n with
  | zero => simp [canonTy] at h
  | succ n =>
    rw [canonTy] at h
    split at h
    · cases h
    rename_i d hd
    refine ⟨n, d, rfl, hd, ?_⟩
    unfold canonDef at h
    by_cases hv : d.name.str ∈ vis
    · rw [if_pos hv] at h
      exact .inl ⟨hv, (Option.some.inj h).symm⟩
    rw [if_neg hv] at h
    refine .inr ⟨hv, ?_⟩
    cases hk : d.kind with
    | record fs =>
      simp only [hk] at h
      split at h
      · cases h
      rename_i cs v hc
      exact .inl ⟨fs, cs, v, rfl, hc, (Option.some.inj h).symm⟩
    | enum ss dflt => simp only [hk] at h; exact .inr (.inl ⟨ss, dflt, rfl, (Option.some.inj h).symm⟩)
    | fixed size => simp only [hk] at h; exact .inr (.inr ⟨size, rfl, (Option.some.inj h).symm⟩)

theorem nonEmpty_inj {key : Str} {a b : List Canon} (h : nonEmpty key a = nonEmpty key b) : a = b := by
  cases a with
  | nil =>
    cases b with
    | nil => rfl
    | cons => simp [nonEmpty] at h
  | cons =>
    cases b with
    | nil => simp [nonEmpty] at h
    | cons => simpa [nonEmpty] using h

theorem mentions_prim {t : Ty} (h : t ∈ primitives) (q : QName) : ¬ TyMentions t q := by
  intro hq
  simp only [primitives, List.mem_cons, List.not_mem_nil, or_false] at h
  rcases h with rfl | rfl | rfl | rfl | rfl | rfl | rfl | rfl <;> cases hq

theorem prim_inj {e e' : Env} {n n' : Nat} {t t' : Ty} {vis c v v'} (ht : t ∈ primitives) (ht' : t' ∈ primitives)
    (h : canonTy e n t vis = some (c, v)) (h' : canonTy e' n' t' vis = some (c, v')) : t = t' := by
  cases n with
  | zero => simp [canonTy] at h
  | succ n =>
    cases n' with
    | zero => simp [canonTy] at h'
    | succ n' =>
      simp only [primitives, List.mem_cons, List.not_mem_nil, or_false] at ht ht'
      rcases ht with rfl | rfl | rfl | rfl | rfl | rfl | rfl | rfl <;>
        rcases ht' with rfl | rfl | rfl | rfl | rfl | rfl | rfl | rfl <;>
        first
        | rfl
        | (exfalso
           simp only [canonTy] at h h'
           simp only [Option.some.injEq, Prod.mk.injEq] at h h'
           have := h.1.trans h'.1.symm
           simp only [Canon.str.injEq] at this
           exact absurd this (by decide))

theorem canon_same {e e' : Env} (hN : NamesPlain e) (hN' : NamesPlain e') :
    ∀ n n' t t' vis c v v', canonTy e n t vis = some (c, v) → canonTy e' n' t' vis = some (c, v') →
      Told e e' vis v v' ∧ AlikeTy e e' t t' ∧ Seen e v t := by
  intro n
  induction n with
  | zero => intro n' t t' vis c v v' h; simp [canonTy] at h
  | succ n ih =>
    intro n' t t' vis c v v' h h'
    obtain ⟨n', rfl⟩ : ∃ m, n' = m + 1 := by
      cases n' with
      | zero => simp [canonTy] at h'
      | succ m => exact ⟨m, rfl⟩
    have hmem : ∀ (us us' : List Ty) vis cs v v', canonMembers (canonTy e n) us vis = some (cs, v) →
        canonMembers (canonTy e' n') us' vis = some (cs, v') →
        Told e e' vis v v' ∧ AlikeTys e e' us us' ∧ ∀ u ∈ us, Seen e v u := by
      intro us
      induction us with
      | nil =>
        intro us' vis cs v v' h1 h2
        simp only [canonMembers, Option.some.injEq, Prod.mk.injEq] at h1
        obtain ⟨rfl, rfl⟩ := h1
        cases us' with
        | nil =>
          simp only [canonMembers, Option.some.injEq, Prod.mk.injEq, true_and] at h2
          subst h2
          exact ⟨.refl _ _ _, .nil, by simp⟩
        | cons u' us' =>
          simp only [canonMembers] at h2
          split at h2
          · cases h2
          split at h2 <;> cases h2
      | cons u us ihu =>
        intro us' vis cs v v' h1 h2
        simp only [canonMembers] at h1
        split at h1
        · cases h1
        rename_i c1 v1 hc1
        split at h1
        · cases h1
        rename_i cs1 v2 hc2
        simp only [Option.some.injEq, Prod.mk.injEq] at h1
        obtain ⟨rfl, rfl⟩ := h1
        cases us' with
        | nil => simp [canonMembers] at h2
        | cons u' us' =>
          simp only [canonMembers] at h2
          split at h2
          · cases h2
          rename_i c1' v1' hc1'
          split at h2
          · cases h2
          rename_i cs1' v2' hc2'
          simp only [Option.some.injEq, Prod.mk.injEq, List.cons.injEq] at h2
          obtain ⟨⟨rfl, rfl⟩, rfl⟩ := h2
          obtain ⟨a1, a2, a3⟩ := ih n' u u' vis _ _ _ hc1 hc1'
          obtain rfl := a1.same
          obtain ⟨b1, b2, b3⟩ := ihu us' _ _ _ _ hc2 hc2'
          refine ⟨a1.trans b1, .cons a2 b2, ?_⟩
          intro x hx
          rcases List.mem_cons.1 hx with rfl | hx
          · exact a3.mono b1.grow
          · exact b3 x hx
    have hfld : ∀ (us us' : List Field) vis cs v v', canonFields (canonTy e n) us vis = some (cs, v) →
        canonFields (canonTy e' n') us' vis = some (cs, v') →
        Told e e' vis v v' ∧ AlikeFields e e' us us' ∧ ∀ u ∈ us, Seen e v u.ty := by
      intro us
      induction us with
      | nil =>
        intro us' vis cs v v' h1 h2
        simp only [canonFields, Option.some.injEq, Prod.mk.injEq] at h1
        obtain ⟨rfl, rfl⟩ := h1
        cases us' with
        | nil =>
          simp only [canonFields, Option.some.injEq, Prod.mk.injEq, true_and] at h2
          subst h2
          exact ⟨.refl _ _ _, .nil, by simp⟩
        | cons u' us' =>
          simp only [canonFields] at h2
          split at h2
          · cases h2
          split at h2 <;> cases h2
      | cons u us ihu =>
        intro us' vis cs v v' h1 h2
        simp only [canonFields] at h1
        split at h1
        · cases h1
        rename_i c1 v1 hc1
        split at h1
        · cases h1
        rename_i cs1 v2 hc2
        simp only [Option.some.injEq, Prod.mk.injEq] at h1
        obtain ⟨rfl, rfl⟩ := h1
        cases us' with
        | nil => simp [canonFields] at h2
        | cons u' us' =>
          simp only [canonFields] at h2
          split at h2
          · cases h2
          rename_i c1' v1' hc1'
          split at h2
          · cases h2
          rename_i cs1' v2' hc2'
          simp only [Option.some.injEq, Prod.mk.injEq, List.cons.injEq, Canon.obj.injEq, Canon.str.injEq, true_and,
            and_true] at h2
          obtain ⟨⟨⟨hname, rfl⟩, rfl⟩, rfl⟩ := h2
          obtain ⟨a1, a2, a3⟩ := ih n' u.ty u'.ty vis _ _ _ hc1 hc1'
          obtain rfl := a1.same
          obtain ⟨b1, b2, b3⟩ := ihu us' _ _ _ _ hc2 hc2'
          refine ⟨a1.trans b1, .cons hname.symm a2 b2, ?_⟩
          intro x hx
          rcases List.mem_cons.1 hx with rfl | hx
          · exact a3.mono b1.grow
          · exact b3 x hx
    have href : ∀ q q', t = .ref q → t' = .ref q' → Told e e' vis v v' ∧ AlikeTy e e' t t' ∧ Seen e v t := by
      rintro q q' rfl rfl
      obtain ⟨k, d, hk, hd, hr⟩ := ref_form h
      obtain ⟨k', d', hk', hd', hr'⟩ := ref_form h'
      obtain rfl : n = k := by omega
      obtain rfl : n' = k' := by omega
      have hname : ∀ a b : Str, a = d.name.str → b = d'.name.str → a = b → d.name = d'.name := by
        rintro a b rfl rfl he
        exact qname_str_inj (hN.plain _ _ hd) (hN'.plain _ _ hd') he
      rcases hr with ⟨hv, hr⟩ | ⟨hv, hr⟩
      · simp only [Prod.mk.injEq] at hr
        obtain ⟨rfl, rfl⟩ := hr
        rcases hr' with ⟨hv', hr'⟩ | ⟨hv', hr'⟩
        · simp only [Prod.mk.injEq, Canon.str.injEq] at hr'
          obtain ⟨h1, rfl⟩ := hr'
          refine ⟨.refl _ _ _, .ref hd hd' (hname _ _ rfl rfl h1), ?_⟩
          intro q2 hq2; cases hq2; exact ⟨d, hd, hv⟩
        · exfalso
          rcases hr' with ⟨_, _, _, _, _, hr'⟩ | ⟨_, _, _, hr'⟩ | ⟨_, _, hr'⟩ <;> simp at hr'
      · rcases hr' with ⟨hv', hr'⟩ | ⟨hv', hr'⟩
        · exfalso
          simp only [Prod.mk.injEq] at hr'
          obtain ⟨rfl, -⟩ := hr'
          rcases hr with ⟨_, _, _, _, _, hr⟩ | ⟨_, _, _, hr⟩ | ⟨_, _, hr⟩ <;> simp at hr
        · have self : ∀ {w : List Str}, (∀ x ∈ d.name.str :: vis, x ∈ w) → Seen e w (.ref q) := by
            intro w hw q2 hq2; cases hq2; exact ⟨d, hd, hw _ (by simp)⟩
          rcases hr with ⟨fs, cs, w, hkd, hf, hr⟩ | ⟨ss, dflt, hkd, hr⟩ | ⟨size, hkd, hr⟩ <;>
            rcases hr' with ⟨fs', cs', w', hkd', hf', hr'⟩ | ⟨ss', dflt', hkd', hr'⟩ | ⟨size', hkd', hr'⟩ <;>
            (simp only [Prod.mk.injEq] at hr hr'; obtain ⟨hc, hw⟩ := hr; obtain ⟨hc', hw'⟩ := hr';
             rw [hc] at hc';
             simp only [Canon.obj.injEq, List.cons_append, List.nil_append, List.cons.injEq, Prod.mk.injEq, Canon.str.injEq,
              Canon.num.injEq, true_and, and_true] at hc') <;>
            first
            | (exfalso; exact absurd hc'.2.1 (by decide))
            | skip
          · have hn := hname _ _ rfl rfl hc'.1
            obtain rfl := nonEmpty_inj hc'.2
            subst hw hw'
            rw [← hc'.1] at hf'
            obtain ⟨a1, a2, a3⟩ := hfld fs fs' _ _ _ _ hf hf'
            refine ⟨⟨a1.same, fun x hx => a1.grow x (by simp [hx]), fun x hx => ?_⟩, .ref hd hd' hn, self a1.grow⟩
            rcases a1.facts x hx with h3 | h3
            · rcases List.mem_cons.1 h3 with rfl | h3
              · refine .inr ⟨q, d, q', d', hd, hd', rfl, hn, ?_, ?_⟩
                · rw [hkd, hkd']; exact .record a2
                · intro fs2 hk2 f hfm
                  rw [hkd] at hk2; cases hk2
                  exact a3 f hfm
              · exact .inl h3
            · exact .inr h3
          · have hn := hname _ _ rfl rfl hc'.1
            have hs := nonEmpty_inj hc'.2
            have hss : ss = ss' := by
              clear hkd hkd' hc hc'
              induction ss generalizing ss' with
              | nil => cases ss' with
                | nil => rfl
                | cons => simp at hs
              | cons a ss ihs => cases ss' with
                | nil => simp at hs
                | cons b ss' =>
                  simp only [List.map_cons, List.cons.injEq, Canon.str.injEq] at hs
                  rw [hs.1, ihs _ hs.2]
            subst hss hw hw'
            refine ⟨⟨by rw [hc'.1], fun x hx => by simp [hx], fun x hx => ?_⟩, .ref hd hd' hn, self fun x hx => hx⟩
            rcases List.mem_cons.1 hx with rfl | hx
            · refine .inr ⟨q, d, q', d', hd, hd', rfl, hn, ?_, ?_⟩
              · rw [hkd, hkd']; exact .enum
              · intro fs2 hk2; rw [hkd] at hk2; cases hk2
            · exact .inl hx
          · have hn := hname _ _ rfl rfl hc'.1
            obtain ⟨hx, hsz⟩ := hc'
            subst hsz hw hw'
            refine ⟨⟨by rw [hx], fun x hx => by simp [hx], fun x hx => ?_⟩, .ref hd hd' hn, self fun x hx => hx⟩
            rcases List.mem_cons.1 hx with rfl | hx
            · refine .inr ⟨q, d, q', d', hd, hd', rfl, hn, ?_, ?_⟩
              · rw [hkd, hkd']; exact .fixed
              · intro fs2 hk2; rw [hkd] at hk2; cases hk2
            · exact .inl hx
    have hform : ∀ {env : Env} {m : Nat} {u : Ty} {w}, canonTy env (m + 1) u vis = some (c, w) →
        (u ∈ primitives ∧ (∃ s ∈ primitiveNames, c = .str s) ∧ w = vis) ∨
        (∃ ts cs, u = .union ts ∧ c = .arr cs ∧ canonMembers (canonTy env m) ts vis = some (cs, w)) ∨
        (∃ x c1, u = .array x ∧ c = .obj [("type".toList, .str "array".toList), ("items".toList, c1)] ∧
          canonTy env m x vis = some (c1, w)) ∨
        (∃ x c1, u = .map x ∧ c = .obj [("type".toList, .str "map".toList), ("values".toList, c1)] ∧
          canonTy env m x vis = some (c1, w)) ∨
        (∃ q d, u = .ref q ∧ env.find q = some d ∧ (c = .str d.name.str ∨ ∃ l, c = .obj (("name".toList, .str d.name.str) :: l))) := by
      intro env m u w hu
      rcases prim_form hu with ⟨h1, s, hs, h2⟩ | ⟨ts, rfl⟩ | ⟨x, rfl⟩ | ⟨x, rfl⟩ | ⟨q, rfl⟩
      · simp only [Prod.mk.injEq] at h2
        exact .inl ⟨h1, ⟨s, hs, h2.1⟩, h2.2⟩
      · rw [canonTy] at hu
        split at hu
        · cases hu
        rename_i cs w' hm
        simp only [Option.some.injEq, Prod.mk.injEq] at hu
        obtain ⟨rfl, rfl⟩ := hu
        exact .inr (.inl ⟨ts, cs, rfl, rfl, hm⟩)
      · rw [canonTy] at hu
        split at hu
        · cases hu
        rename_i cs w' hm
        simp only [Option.some.injEq, Prod.mk.injEq] at hu
        obtain ⟨rfl, rfl⟩ := hu
        exact .inr (.inr (.inl ⟨x, cs, rfl, rfl, hm⟩))
      · rw [canonTy] at hu
        split at hu
        · cases hu
        rename_i cs w' hm
        simp only [Option.some.injEq, Prod.mk.injEq] at hu
        obtain ⟨rfl, rfl⟩ := hu
        exact .inr (.inr (.inr (.inl ⟨x, cs, rfl, rfl, hm⟩)))
      · obtain ⟨k, d, hk, hd, hr⟩ := ref_form hu
        refine .inr (.inr (.inr (.inr ⟨q, d, rfl, hd, ?_⟩)))
        rcases hr with ⟨-, hr⟩ | ⟨-, ⟨_, _, _, _, _, hr⟩ | ⟨_, _, _, hr⟩ | ⟨_, _, hr⟩⟩ <;> simp only [Prod.mk.injEq] at hr
        · exact .inl hr.1
        all_goals exact .inr ⟨_, hr.1⟩
    have clash : ∀ {d : Def} {y : Str} {l'}, (c = .str d.name.str ∨ ∃ l, c = .obj (("name".toList, .str d.name.str) :: l)) →
        c = .obj (("type".toList, .str y) :: l') → False := by
      intro d y l' h1 h2
      rw [h2] at h1
      rcases h1 with h1 | ⟨_, h1⟩
      · cases h1
      · simp only [Canon.obj.injEq, List.cons.injEq, Prod.mk.injEq] at h1
        exact absurd h1.1.1 (by decide)
    rcases hform h with ⟨hp, ⟨s, hs, hc⟩, hw⟩ | ⟨ts, cs, rfl, hc, hm⟩ | ⟨x, c1, rfl, hc, hx⟩ | ⟨x, c1, rfl, hc, hx⟩ | ⟨q, d, rfl, hd, hc⟩
    · rcases hform h' with ⟨hp', ⟨s', hs', hc'⟩, hw'⟩ | ⟨ts', cs', rfl, hc', hm'⟩ | ⟨x', c1', rfl, hc', hx'⟩ | ⟨x', c1', rfl, hc', hx'⟩ | ⟨q', d', rfl, hd', hc'⟩
      · obtain rfl := prim_inj hp hp' h h'
        subst hw hw'
        exact ⟨.refl _ _ _, .prim hp, fun q hq => absurd hq (mentions_prim hp q)⟩
      · rw [hc] at hc'; cases hc'
      · rw [hc] at hc'; cases hc'
      · rw [hc] at hc'; cases hc'
      · rw [hc] at hc'
        rcases hc' with hc' | ⟨_, hc'⟩
        · simp only [Canon.str.injEq] at hc'
          exact absurd (hc' ▸ hs) (hN'.notPrim _ _ hd')
        · cases hc'
    · rcases hform h' with ⟨hp', ⟨s', hs', hc'⟩, hw'⟩ | ⟨ts', cs', rfl, hc', hm'⟩ | ⟨x', c1', rfl, hc', hx'⟩ | ⟨x', c1', rfl, hc', hx'⟩ | ⟨q', d', rfl, hd', hc'⟩
      · rw [hc] at hc'; cases hc'
      · rw [hc] at hc'; cases hc'
        obtain ⟨a1, a2, a3⟩ := hmem _ _ _ _ _ _ hm hm'
        exact ⟨a1, .union a2, fun q hq => by cases hq with | union h1 h2 => exact a3 _ h1 q h2⟩
      · rw [hc] at hc'; cases hc'
      · rw [hc] at hc'; cases hc'
      · rw [hc] at hc'
        rcases hc' with hc' | ⟨_, hc'⟩ <;> cases hc'
    · rcases hform h' with ⟨hp', ⟨s', hs', hc'⟩, hw'⟩ | ⟨ts', cs', rfl, hc', hm'⟩ | ⟨x', c1', rfl, hc', hx'⟩ | ⟨x', c1', rfl, hc', hx'⟩ | ⟨q', d', rfl, hd', hc'⟩
      · rw [hc] at hc'; cases hc'
      · rw [hc] at hc'; cases hc'
      · rw [hc] at hc'
        simp only [Canon.obj.injEq, List.cons.injEq, Prod.mk.injEq, true_and, and_true] at hc'
        subst hc'
        obtain ⟨a1, a2, a3⟩ := ih _ _ _ _ _ _ _ hx hx'
        exact ⟨a1, .array a2, fun q hq => by cases hq with | array h2 => exact a3 q h2⟩
      · rw [hc] at hc'
        simp only [Canon.obj.injEq, List.cons.injEq, Prod.mk.injEq, true_and, and_true, Canon.str.injEq] at hc'
        exact absurd hc'.1 (by decide)
      · exact (clash hc' hc).elim
    · rcases hform h' with ⟨hp', ⟨s', hs', hc'⟩, hw'⟩ | ⟨ts', cs', rfl, hc', hm'⟩ | ⟨x', c1', rfl, hc', hx'⟩ | ⟨x', c1', rfl, hc', hx'⟩ | ⟨q', d', rfl, hd', hc'⟩
      · rw [hc] at hc'; cases hc'
      · rw [hc] at hc'; cases hc'
      · rw [hc] at hc'
        simp only [Canon.obj.injEq, List.cons.injEq, Prod.mk.injEq, true_and, and_true, Canon.str.injEq] at hc'
        exact absurd hc'.1 (by decide)
      · rw [hc] at hc'
        simp only [Canon.obj.injEq, List.cons.injEq, Prod.mk.injEq, true_and, and_true] at hc'
        subst hc'
        obtain ⟨a1, a2, a3⟩ := ih _ _ _ _ _ _ _ hx hx'
        exact ⟨a1, .map a2, fun q hq => by cases hq with | map h2 => exact a3 q h2⟩
      · exact (clash hc' hc).elim
    · rcases hform h' with ⟨hp', ⟨s', hs', hc'⟩, hw'⟩ | ⟨ts', cs', rfl, hc', hm'⟩ | ⟨x', c1', rfl, hc', hx'⟩ | ⟨x', c1', rfl, hc', hx'⟩ | ⟨q', d', rfl, hd', hc'⟩
      · rw [hc'] at hc
        rcases hc with hc | ⟨_, hc⟩
        · simp only [Canon.str.injEq] at hc
          exact absurd (hc ▸ hs') (hN.notPrim _ _ hd)
        · cases hc
      · rw [hc'] at hc
        rcases hc with hc | ⟨_, hc⟩ <;> cases hc
      · exact (clash hc hc').elim
      · exact (clash hc hc').elim
      · exact href q q' rfl rfl

/-- Names of a table stand for one definition each. -/
def OneDef (env : Env) : Prop :=
  ∀ q q' d d', env.find q = some d → env.find q' = some d' → d.name = d'.name → d = d'

theorem alike_of_canon {s s' : Schema} (hN : NamesPlain s.env) (hN' : NamesPlain s'.env) (h1 : OneDef s.env)
    (h1' : OneDef s'.env) {n n' c v v'} (h : canonTy s.env n s.root [] = some (c, v))
    (h' : canonTy s'.env n' s'.root [] = some (c, v')) : Alike s s' := by
  obtain ⟨a1, a2, a3⟩ := canon_same hN hN' _ _ _ _ _ _ _ _ h h'
  refine ⟨a2, ?_⟩
  have hseen : ∀ q, Reachable s q → ∃ d, s.env.find q = some d ∧ d.name.str ∈ v := by
    intro q hq
    induction hq with
    | root hq => exact a3 _ hq
    | @field q d fs f q' _ hd hk hf hm ih =>
      obtain ⟨d2, hd2, hx⟩ := ih
      rw [hd] at hd2; cases hd2
      rcases a1.facts _ hx with h3 | ⟨q3, d3, q3', d3', h4, h5, h6, h7, h8, h9⟩
      · cases h3
      · obtain rfl := h1 _ _ _ _ h4 hd (qname_str_inj (hN.plain _ _ h4) (hN.plain _ _ hd) h6)
        exact h9 fs hk f hf _ hm
  intro q hq d hd q' d' hd' hn
  obtain ⟨d2, hd2, hx⟩ := hseen q hq
  rw [hd] at hd2; cases hd2
  rcases a1.facts _ hx with h3 | ⟨q3, d3, q3', d3', h4, h5, h6, h7, h8, h9⟩
  · cases h3
  · obtain rfl := h1 _ _ _ _ h4 hd (qname_str_inj (hN.plain _ _ h4) (hN.plain _ _ hd) h6)
    obtain rfl := h1' _ _ _ _ h5 hd' (by rw [← h7, hn])
    exact h8

/-! ### alike schemas have the same data -/

section
variable {e e' : Env} {P : QName → Prop}

mutual
theorem enc_alike (hP : ClosedSet e P) (hA : AlikeDefs e e' P) : ∀ (x : Datum) {t t' bs}, AlikeTy e e' t t' →
    (∀ q, TyMentions t q → P q) → (Enc e x t bs ↔ Enc e' x t' bs)
  | .null, t, t', bs, h, hm => by
    simp only [Enc]; cases h <;> simp
  | .bool _, t, t', bs, h, hm => by
    simp only [Enc]; cases h <;> simp
  | .int _, t, t', bs, h, hm => by
    simp only [Enc]; cases h <;> simp
  | .long _, t, t', bs, h, hm => by
    simp only [Enc]; cases h <;> simp
  | .float _, t, t', bs, h, hm => by
    simp only [Enc]; cases h <;> simp
  | .double _, t, t', bs, h, hm => by
    simp only [Enc]; cases h <;> simp
  | .bytes _, t, t', bs, h, hm => by
    simp only [Enc]; cases h <;> simp
  | .string _, t, t', bs, h, hm => by
    simp only [Enc]; cases h <;> simp
  | .fixed x, t, t', bs, h, hm => by
    simp only [Enc]
    cases h with
    | prim h => simp only [primitives, List.mem_cons, List.not_mem_nil, or_false] at h
                rcases h with rfl | rfl | rfl | rfl | rfl | rfl | rfl | rfl <;> simp
    | array => simp
    | map => simp
    | union => simp
    | @ref q q' d d' hd hd' hn =>
      have hk := hA q (hm q .ref) d hd q' d' hd' hn.symm
      constructor
      · rintro ⟨q1, d1, e1, e2, e3, e4⟩
        cases e1
        rw [hd] at e2; cases e2
        rw [e3] at hk
        refine ⟨q', d', rfl, hd', ?_, e4⟩
        generalize d'.kind = k at hk
        cases hk; rfl
      · rintro ⟨q1, d1, e1, e2, e3, e4⟩
        cases e1
        rw [hd'] at e2; cases e2
        rw [e3] at hk
        refine ⟨q, d, rfl, hd, ?_, e4⟩
        generalize d.kind = k at hk
        cases hk; rfl
  | .enum i, t, t', bs, h, hm => by
    simp only [Enc]
    cases h with
    | prim h => simp only [primitives, List.mem_cons, List.not_mem_nil, or_false] at h
                rcases h with rfl | rfl | rfl | rfl | rfl | rfl | rfl | rfl <;> simp
    | array => simp
    | map => simp
    | union => simp
    | @ref q q' d d' hd hd' hn =>
      have hk := hA q (hm q .ref) d hd q' d' hd' hn.symm
      constructor
      · rintro ⟨q1, d1, ss, dflt, e1, e2, e3, e4⟩
        cases e1
        rw [hd] at e2; cases e2
        rw [e3] at hk
        generalize hk' : d'.kind = k at hk
        cases hk with
        | enum => exact ⟨q', d', ss, _, rfl, hd', hk', e4⟩
      · rintro ⟨q1, d1, ss, dflt, e1, e2, e3, e4⟩
        cases e1
        rw [hd'] at e2; cases e2
        rw [e3] at hk
        generalize hk' : d.kind = k at hk
        cases hk with
        | enum => exact ⟨q, d, ss, _, rfl, hd, hk', e4⟩
  | .array ds, t, t', bs, h, hm => by
    have ih := @encAll_alike hP hA ds
    simp only [Enc]
    cases h with
    | prim h => simp only [primitives, List.mem_cons, List.not_mem_nil, or_false] at h
                rcases h with rfl | rfl | rfl | rfl | rfl | rfl | rfl | rfl <;> simp
    | array h =>
      constructor
      · rintro ⟨item, es, e1, e2, e3⟩
        cases e1
        exact ⟨_, es, rfl, (ih h fun q hq => hm q (.array hq)).1 e2, e3⟩
      · rintro ⟨item, es, e1, e2, e3⟩
        cases e1
        exact ⟨_, es, rfl, (ih h fun q hq => hm q (.array hq)).2 e2, e3⟩
    | map => simp
    | union => simp
    | ref => simp
  | .map ds, t, t', bs, h, hm => by
    have ih := @encEntries_alike hP hA ds
    simp only [Enc]
    cases h with
    | prim h => simp only [primitives, List.mem_cons, List.not_mem_nil, or_false] at h
                rcases h with rfl | rfl | rfl | rfl | rfl | rfl | rfl | rfl <;> simp
    | map h =>
      constructor
      · rintro ⟨item, es, e1, e2, e3⟩
        cases e1
        exact ⟨_, es, rfl, (ih h fun q hq => hm q (.map hq)).1 e2, e3⟩
      · rintro ⟨item, es, e1, e2, e3⟩
        cases e1
        exact ⟨_, es, rfl, (ih h fun q hq => hm q (.map hq)).2 e2, e3⟩
    | array => simp
    | union => simp
    | ref => simp
  | .union i x, t, t', bs, h, hm => by
    have ih := @enc_alike hP hA x
    simp only [Enc]
    cases h with
    | prim h => simp only [primitives, List.mem_cons, List.not_mem_nil, or_false] at h
                rcases h with rfl | rfl | rfl | rfl | rfl | rfl | rfl | rfl <;> simp
    | map => simp
    | array => simp
    | ref => simp
    | @union ts ts' h =>
      have hget : ∀ (i : Nat) (us us' : List Ty), AlikeTys e e' us us' →
          (∀ u, us[i]? = some u → ∃ u', us'[i]? = some u' ∧ AlikeTy e e' u u') ∧
          (∀ u', us'[i]? = some u' → ∃ u, us[i]? = some u ∧ AlikeTy e e' u u') := by
        intro i
        induction i with
        | zero =>
          intro us us' h
          cases h with
          | nil => simp
          | cons h1 h2 =>
            constructor
            · intro u hu; simp at hu; subst hu; exact ⟨_, rfl, h1⟩
            · intro u hu; simp at hu; subst hu; exact ⟨_, rfl, h1⟩
        | succ i ihi =>
          intro us us' h
          cases h with
          | nil => simp
          | cons h1 h2 =>
            simp only [List.getElem?_cons_succ]
            exact ihi _ _ h2
      obtain ⟨g1, g2⟩ := hget i ts ts' h
      constructor
      · rintro ⟨us, u, en, e1, e2, e3, e4⟩
        cases e1
        obtain ⟨u', e5, e6⟩ := g1 u e2
        exact ⟨_, u', en, rfl, e5, (ih e6 fun q hq => hm q (.union (List.mem_of_getElem? e2) hq)).1 e3, e4⟩
      · rintro ⟨us, u', en, e1, e2, e3, e4⟩
        cases e1
        obtain ⟨u, e5, e6⟩ := g2 u' e2
        exact ⟨_, u, en, rfl, e5, (ih e6 fun q hq => hm q (.union (List.mem_of_getElem? e5) hq)).2 e3, e4⟩
  | .record ds, t, t', bs, h, hm => by
    have ih := @encFields_alike hP hA ds
    simp only [Enc]
    cases h with
    | prim h => simp only [primitives, List.mem_cons, List.not_mem_nil, or_false] at h
                rcases h with rfl | rfl | rfl | rfl | rfl | rfl | rfl | rfl <;> simp
    | array => simp
    | map => simp
    | union => simp
    | @ref q q' d d' hd hd' hn =>
      have hk := hA q (hm q .ref) d hd q' d' hd' hn.symm
      constructor
      · rintro ⟨q1, d1, fs, e1, e2, e3, e4⟩
        cases e1
        rw [hd] at e2; cases e2
        rw [e3] at hk
        generalize hk' : d'.kind = k at hk
        cases hk with
        | record hf => exact ⟨q', d', _, rfl, hd', hk', (ih hf (hP.fields q (hm q .ref) d fs hd e3)).1 e4⟩
      · rintro ⟨q1, d1, fs', e1, e2, e3, e4⟩
        cases e1
        rw [hd'] at e2; cases e2
        rw [e3] at hk
        generalize hk' : d.kind = k at hk
        cases hk with
        | record hf => exact ⟨q, d, _, rfl, hd, hk', (ih hf (hP.fields q (hm q .ref) d _ hd hk')).2 e4⟩
theorem encAll_alike (hP : ClosedSet e P) (hA : AlikeDefs e e' P) : ∀ (xs : List Datum) {t t' es}, AlikeTy e e' t t' →
    (∀ q, TyMentions t q → P q) → (EncAll e xs t es ↔ EncAll e' xs t' es)
  | [], t, t', es, h, hm => by simp only [EncAll]
  | x :: xs, t, t', es, h, hm => by
    have ih1 := @enc_alike hP hA x
    have ih2 := @encAll_alike hP hA xs
    simp only [EncAll]
    constructor
    · rintro ⟨a, b, h1, h2, h3⟩; exact ⟨a, b, h1, (ih1 h hm).1 h2, (ih2 h hm).1 h3⟩
    · rintro ⟨a, b, h1, h2, h3⟩; exact ⟨a, b, h1, (ih1 h hm).2 h2, (ih2 h hm).2 h3⟩
theorem encEntries_alike (hP : ClosedSet e P) (hA : AlikeDefs e e' P) : ∀ (xs : List (List Byte × Datum)) {t t' es},
    AlikeTy e e' t t' → (∀ q, TyMentions t q → P q) → (EncEntries e xs t es ↔ EncEntries e' xs t' es)
  | [], t, t', es, h, hm => by simp only [EncEntries]
  | (k, x) :: xs, t, t', es, h, hm => by
    have ih1 := @enc_alike hP hA x
    have ih2 := @encEntries_alike hP hA xs
    simp only [EncEntries]
    constructor
    · rintro ⟨a, b, h1, h2, h3⟩; exact ⟨a, b, h1, (ih1 h hm).1 h2, (ih2 h hm).1 h3⟩
    · rintro ⟨a, b, h1, h2, h3⟩; exact ⟨a, b, h1, (ih1 h hm).2 h2, (ih2 h hm).2 h3⟩
theorem encFields_alike (hP : ClosedSet e P) (hA : AlikeDefs e e' P) : ∀ (xs : List Datum) {fs fs' bs},
    AlikeFields e e' fs fs' → (∀ f ∈ fs, ∀ q, TyMentions f.ty q → P q) → (EncFields e xs fs bs ↔ EncFields e' xs fs' bs)
  | [], fs, fs', bs, h, hm => by
    simp only [EncFields]; cases h <;> simp
  | x :: xs, fs, fs', bs, h, hm => by
    have ih1 := @enc_alike hP hA x
    have ih2 := @encFields_alike hP hA xs
    simp only [EncFields]
    cases h with
    | nil => simp
    | @cons f f' fs fs' hn ht hr =>
      have hm1 := hm f (by simp)
      have hm2 : ∀ g ∈ fs, ∀ q, TyMentions g.ty q → P q := fun g hg => hm g (by simp [hg])
      constructor
      · rintro ⟨a, b, c, d, h1, h2, h3, h4⟩
        cases h1
        exact ⟨_, _, c, d, rfl, (ih1 ht hm1).1 h2, (ih2 hr hm2).1 h3, h4⟩
      · rintro ⟨a, b, c, d, h1, h2, h3, h4⟩
        cases h1
        exact ⟨_, _, c, d, rfl, (ih1 ht hm1).2 h2, (ih2 hr hm2).2 h3, h4⟩
end
end

end Verif
