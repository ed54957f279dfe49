import Verif.Gen.JsonUnmarshal
import Verif.Gen.DefaultProof
/-
`unmarshal` (Gen/Json) has a number that bounds the depth of defaults. Unless a default is what fails, a greater number gives the same.
-/
namespace Verif
open Spec

/-- Not the failure of a default. -/
def NoDefErr {α : Type} (x : JRes α) : Prop := ∀ e, x ≠ .error (.deflt e)

/-- The second gives what the first gives, unless a default fails. -/
def Read.Le (r r' : Read) : Prop := ∀ t cur, NoDefErr (r t cur) → r' t cur = r t cur

theorem plain_bind {α β : Type} {x : JRes α} {f : α → JRes β} (h : NoDefErr (x.bind f)) : NoDefErr x ∧ ∀ a, x = .ok a → NoDefErr (f a) := by
  constructor
  · intro e hx
    subst hx
    exact h e rfl
  · rintro a rfl
    exact h

theorem bind_le {α β : Type} {x x' : JRes α} {f f' : α → JRes β} (h : NoDefErr (x.bind f)) (hx : NoDefErr x → x' = x)
    (hf : ∀ a, NoDefErr (f a) → f' a = f a) : x'.bind f' = x.bind f := by
  obtain ⟨h1, h2⟩ := plain_bind h
  rw [hx h1]
  cases x with
  | error e => rfl
  | ok a => exact hf a (h2 a rfl)

theorem plain_map {α β : Type} {x : JRes α} {f : α → β} (h : NoDefErr (x.map f)) : NoDefErr x := by
  intro e hx
  subst hx
  exact h e rfl

theorem map_le {α β : Type} {x x' : JRes α} {f : α → β} (h : NoDefErr (x.map f)) (hx : NoDefErr x → x' = x) : x'.map f = x.map f := by
  rw [hx (plain_map h)]

variable {nm : Namer} {env : Env} {m n : Nat}

theorem absent_le (hm : m ≤ n) {f : Field} {cur : Val} (h : NoDefErr (absent nm env m f cur)) : absent nm env n f cur = absent nm env m f cur := by
  unfold absent at h ⊢
  cases hd : f.dflt with
  | none => rfl
  | some j =>
    rw [hd] at h
    dsimp only at h ⊢
    cases h1 : (defaultTarget nm env m f.ty cur).bind fun v0 => (applyDefault nm env m j f.ty true (some v0)).bind present with
    | error e => rw [h1] at h; exact (h e rfl).elim
    | ok v =>
      cases h2 : defaultTarget nm env m f.ty cur with
      | error e => rw [h2] at h1; cases h1
      | ok v0 =>
        rw [h2] at h1
        have h3 : defaultTarget nm env n f.ty cur = .ok v0 := by
          unfold defaultTarget at h2 ⊢
          split
          · rename_i hc
            rw [if_pos hc] at h2
            exact construct_mono h2 hm
          · rename_i hc
            rw [if_neg hc] at h2
            exact h2
        rw [h3]
        show ofMade ((applyDefault nm env n j f.ty true (some v0)).bind present) = _
        cases h4 : applyDefault nm env m j f.ty true (some v0) with
        | error e =>
          have : (applyDefault nm env m j f.ty true (some v0)).bind present = .ok v := h1
          rw [h4] at this; cases this
        | ok o =>
          rw [apply_mono h4 hm]
          have : (applyDefault nm env m j f.ty true (some v0)).bind present = .ok v := h1
          rw [h4] at this
          rw [show (Except.ok o : Made (Option Val)).bind present = .ok v from this]

/-- Both are missing, or both are there and related. -/
def OptLe : Option Read → Option Read → Prop
  | none, none => True
  | some r, some r' => r.Le r'
  | _, _ => False

/-- The entries of objects, compared. -/
def GetLe (get get' : Str → Option Read) : Prop := ∀ k, OptLe (get k) (get' k)

/-- Lists of the same length whose elements are related. -/
inductive InStep {α : Type} (R : α → α → Prop) : List α → List α → Prop
  | nil : InStep R [] []
  | cons {a b : α} {l l' : List α} : R a b → InStep R l l' → InStep R (a :: l) (b :: l')

theorem firstOf_le {get get' : Str → Option Read} (h : GetLe get get') : ∀ ks, OptLe (firstOf get ks) (firstOf get' ks)
  | [] => trivial
  | k :: ks => by
    have h1 := h k
    have h2 := firstOf_le h ks
    simp only [firstOf]
    cases e1 : get k with
    | none =>
      cases e2 : get' k with
      | none => exact h2
      | some r => rw [e1, e2] at h1; exact h1.elim
    | some r =>
      cases e2 : get' k with
      | none => rw [e1, e2] at h1; exact h1.elim
      | some r' => rw [e1, e2] at h1; exact h1

theorem fieldsInto_le (hm : m ≤ n) {get get' : Str → Option Read} (h : GetLe get get') : ∀ (fs : List Field) (cs : List Val),
    NoDefErr (fieldsInto nm env m get fs cs) → fieldsInto nm env n get' fs cs = fieldsInto nm env m get fs cs
  | [], _, _ => rfl
  | f :: fs, cs, hp => by
    refine bind_le hp (fun h0 => ?_) (fun v h1 => map_le h1 (fieldsInto_le hm h fs cs.tail))
    unfold fieldInto at h0 ⊢
    have h2 := firstOf_le h (f.name :: f.aliases)
    cases e1 : firstOf get (f.name :: f.aliases) with
    | none =>
      cases e2 : firstOf get' (f.name :: f.aliases) with
      | none => rw [e1] at h0; exact absent_le hm h0
      | some r => rw [e1, e2] at h2; exact h2.elim
    | some r =>
      cases e2 : firstOf get' (f.name :: f.aliases) with
      | none => rw [e1, e2] at h2; exact h2.elim
      | some r' => rw [e1, e2] at h2; rw [e1] at h0; exact h2 _ _ h0

theorem recordInto_le (hm : m ≤ n) {get get' : Str → Option Read} (h : GetLe get get') {fs : List Field} {cur : Val}
    (hp : NoDefErr (recordInto nm env m get fs cur)) : recordInto nm env n get' fs cur = recordInto nm env m get fs cur :=
  map_le hp (fieldsInto_le hm h fs _)

theorem nullInto_le (hm : m ≤ n) : Read.Le (nullInto nm env m) (nullInto nm env n) := by
  intro t cur h
  cases t with
  | ref q =>
    simp only [nullInto] at h ⊢
    cases hq : env.find q with
    | none => rfl
    | some d =>
      rw [hq] at h
      dsimp only at h ⊢
      cases hk : d.kind with
      | record fs =>
        rw [hk] at h
        exact recordInto_le hm (fun k => by trivial) h
      | _ => rfl
  | _ => rfl

theorem itemsInto_le {t : Ty} : ∀ {rs rs' : List Read} (cs : List Val), InStep Read.Le rs rs' → NoDefErr (itemsInto env t rs cs) →
    itemsInto env t rs' cs = itemsInto env t rs cs
  | _, _, _, .nil, _ => rfl
  | _, _, cs, .cons h hs, hp => bind_le hp (h _ _) (fun v h1 => map_le h1 (itemsInto_le cs.tail hs))

theorem entriesInto_le {t : Ty} : ∀ {kvs kvs' : List (Str × Read)} (es : List (List Byte × Val)),
    InStep (fun a b => a.1 = b.1 ∧ Read.Le a.2 b.2) kvs kvs' → NoDefErr (entriesInto env t kvs es) → entriesInto env t kvs' es = entriesInto env t kvs es
  | _, _, _, .nil, _ => rfl
  | (k, r) :: _, (k', r') :: _, es, .cons h hs, hp => by
    obtain ⟨h1, h2⟩ := h
    dsimp only at h1
    subst h1
    exact bind_le hp (h2 _ _) (fun v h1 => entriesInto_le _ hs h1)

theorem lastMember_le : ∀ {kvs kvs' : List (Str × Read)}, InStep (fun a b => a.1 = b.1 ∧ Read.Le a.2 b.2) kvs kvs' → GetLe (lastMember kvs) (lastMember kvs')
  | _, _, .nil => fun k => trivial
  | (k0, r) :: kvs, (k0', r') :: kvs', .cons h hs => fun k => by
    obtain ⟨h1, h2⟩ := h
    dsimp only at h1
    subst h1
    have := lastMember_le hs k
    simp only [lastMember]
    cases e1 : lastMember kvs k with
    | none =>
      cases e2 : lastMember kvs' k with
      | some r => rw [e1, e2] at this; exact this.elim
      | none =>
        by_cases e : k0 = k
        · simp only [if_pos e]; exact h2
        · simp only [if_neg e]; trivial
    | some r =>
      cases e2 : lastMember kvs' k with
      | none => rw [e1, e2] at this; exact this.elim
      | some r' => rw [e1, e2] at this; exact this

theorem membersInto_le {nul : Option Nat} {get get' : Str → Option Read} (h : GetLe get get') (cur : Val) : ∀ (ts : List Ty) (i : Nat),
    NoDefErr (membersInto env nul get cur ts i) → membersInto env nul get' cur ts i = membersInto env nul get cur ts i
  | [], _, _ => rfl
  | t :: ts, i, hp => by
    have ih := membersInto_le (nul := nul) h cur ts (i + 1)
    simp only [membersInto] at hp ⊢
    by_cases h0 : nul = some i
    · rw [if_pos h0] at hp
      rw [if_pos h0, if_pos h0]
      exact ih hp
    · rw [if_neg h0] at hp
      rw [if_neg h0, if_neg h0]
      cases hu : unionKey env t with
      | none =>
        rw [hu] at hp
        exact ih hp
      | some k =>
        rw [hu] at hp
        simp only [Option.bind_some] at hp ⊢
        have := h k
        cases e1 : get k with
        | none =>
          cases e2 : get' k with
          | none => rw [e1] at hp; exact ih hp
          | some r => rw [e1, e2] at this; exact this.elim
        | some r =>
          cases e2 : get' k with
          | none => rw [e1, e2] at this; exact this.elim
          | some r' =>
            rw [e1, e2] at this
            rw [e1] at hp
            exact map_le hp (this _ _)

theorem keys_eq : ∀ {kvs kvs' : List (Str × Read)}, InStep (fun a b => a.1 = b.1 ∧ Read.Le a.2 b.2) kvs kvs' → kvs.map Prod.fst = kvs'.map Prod.fst
  | _, _, .nil => rfl
  | _, _, .cons h hs => by rw [List.map_cons, List.map_cons, h.1, keys_eq hs]

theorem objInto_le (hm : m ≤ n) {kvs kvs' : List (Str × Read)} (h : InStep (fun a b => a.1 = b.1 ∧ Read.Le a.2 b.2) kvs kvs') :
    Read.Le (objInto nm env m kvs) (objInto nm env n kvs') := by
  intro t cur hp
  cases t with
  | map it => exact map_le hp (entriesInto_le _ h)
  | union ts =>
    simp only [objInto] at hp ⊢
    rw [← keys_eq h]
    by_cases hs : severalKeys (kvs.map Prod.fst) = true
    · rw [if_pos hs, if_pos hs]
    · rw [if_neg hs] at hp
      rw [if_neg hs, if_neg hs]
      exact membersInto_le (lastMember_le h) cur ts 0 hp
  | ref q =>
    simp only [objInto] at hp ⊢
    cases hq : env.find q with
    | none => rfl
    | some d =>
      rw [hq] at hp
      dsimp only at hp ⊢
      cases hk : d.kind with
      | record fs =>
        rw [hk] at hp
        exact recordInto_le hm (lastMember_le h) hp
      | _ => rfl
  | _ => rfl

mutual
theorem unmarshal_le (hm : m ≤ n) : ∀ j : JTree, Read.Le (unmarshal nm env m j) (unmarshal nm env n j)
  | .null => by simp only [unmarshal]; exact nullInto_le hm
  | .bool b => fun _ _ _ => by simp only [unmarshal]
  | .num x => fun _ _ _ => by simp only [unmarshal]
  | .str s => fun _ _ _ => by simp only [unmarshal]
  | .arr js => by
    intro t cur hp
    simp only [unmarshal] at hp ⊢
    cases t with
    | array it => exact map_le hp (itemsInto_le _ (readers_le hm js))
    | _ => rfl
  | .obj kvs => by
    intro t cur hp
    simp only [unmarshal] at hp ⊢
    exact objInto_le hm (keyed_le hm kvs) t cur hp
theorem readers_le (hm : m ≤ n) : ∀ js : List JTree, InStep Read.Le (readers nm env m js) (readers nm env n js)
  | [] => by simp only [readers]; exact .nil
  | j :: js => by simp only [readers]; exact .cons (unmarshal_le hm j) (readers_le hm js)
theorem keyed_le (hm : m ≤ n) : ∀ kvs : List (Str × JTree), InStep (fun a b => a.1 = b.1 ∧ Read.Le a.2 b.2) (keyed nm env m kvs) (keyed nm env n kvs)
  | [] => by simp only [keyed]; exact .nil
  | (k, j) :: kvs => by simp only [keyed]; exact .cons ⟨rfl, unmarshal_le hm j⟩ (keyed_le hm kvs)
end

end Verif
