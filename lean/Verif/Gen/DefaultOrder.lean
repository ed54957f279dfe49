import Verif.Gen.DefaultProof
import Verif.Gen.JsonText
import Verif.Spec.Shuffle
/-
The statements for a default do not depend on the order in which the generator walks through the
objects in it.
-/
namespace Verif

theorem mapInsert_comm {α : Type} {k k' : List Byte} (v v' : α) (h : k ≠ k') : ∀ m : List (List Byte × α),
    mapInsert k v (mapInsert k' v' m) = mapInsert k' v' (mapInsert k v m) := by
  have asym : ∀ {a b : List Byte}, keyLt a b = true → ¬ keyLt b a = true := by
    intro a b h1 h2
    have := keyLt_trans h1 h2
    rw [keyLt_irrefl] at this
    cases this
  intro m
  induction m with
  | nil =>
    simp only [mapInsert]
    rw [if_neg h, if_neg (Ne.symm h)]
    rcases keyLt_total k k' with h1 | h1 | h1
    · rw [if_pos h1, if_neg (asym h1)]
    · exact absurd h1 h
    · rw [if_neg (asym h1), if_pos h1]
  | cons x m ih =>
    obtain ⟨c, u⟩ := x
    by_cases e : k = c
    · subst e
      rcases keyLt_total k k' with h1 | h1 | h1
      · simp [mapInsert, h, Ne.symm h, h1, asym h1]
      · exact absurd h1 h
      · simp [mapInsert, h, Ne.symm h, h1, asym h1]
    by_cases e' : k' = c
    · subst e'
      rcases keyLt_total k k' with h1 | h1 | h1
      · simp [mapInsert, h, Ne.symm h, h1, asym h1]
      · exact absurd h1 h
      · simp [mapInsert, h, Ne.symm h, h1, asym h1]
    by_cases l : keyLt k c = true <;> by_cases l' : keyLt k' c = true
    · rcases keyLt_total k k' with h1 | h1 | h1
      · simp [mapInsert, h, Ne.symm h, h1, asym h1, e, e', l, l']
      · exact absurd h1 h
      · simp [mapInsert, h, Ne.symm h, h1, asym h1, e, e', l, l']
    · have h1 : ¬ keyLt k' k = true := fun x => l' (keyLt_trans x l)
      simp [mapInsert, h, Ne.symm h, h1, e, e', l, l']
    · have h1 : ¬ keyLt k k' = true := fun x => l (keyLt_trans x l')
      simp [mapInsert, h, Ne.symm h, h1, e, e', l, l']
    · simp [mapInsert, e, e', l, l', ih]

/-- The two give the same value, or neither gives one. -/
def AgreeOn {α : Type} (a b : Made α) : Prop := ∀ v, a = .ok v ↔ b = .ok v

theorem AgreeOn.refl {α : Type} (a : Made α) : AgreeOn a a := fun _ => Iff.rfl

theorem AgreeOn.trans {α : Type} {a b c : Made α} (h : AgreeOn a b) (h' : AgreeOn b c) : AgreeOn a c :=
  fun v => (h v).trans (h' v)

theorem AgreeOn.bind {α β : Type} {a b : Made α} {f g : α → Made β} (h : AgreeOn a b)
    (hf : ∀ x, a = .ok x → AgreeOn (f x) (g x)) : AgreeOn (a >>= f) (b >>= g) := by
  intro v
  cases ha : a with
  | ok x =>
    have hb := (h x).1 ha
    rw [hb]
    exact hf x ha v
  | error e =>
    cases hb : b with
    | ok x => rw [(h x).2 hb] at ha; cases ha
    | error e' => constructor <;> intro h <;> cases h

theorem AgreeOn.map {α β : Type} {a b : Made α} (f : α → β) (h : AgreeOn a b) : AgreeOn (a.map f) (b.map f) := by
  intro v
  cases ha : a with
  | ok x => have hb := (h x).1 ha; rw [hb]
  | error e =>
    cases hb : b with
    | ok x => rw [(h x).2 hb] at ha; cases ha
    | error e' => constructor <;> intro h <;> cases h

theorem applyItems_agree {mk mk' : Made Val} {ap ap' : Json → Option Val → Made (Option Val)} (hm : AgreeOn mk mk') :
    ∀ {js js' : List Json}, js.length = js'.length →
    (∀ (i : Nat) j j' c, js[i]? = some j → js'[i]? = some j' → AgreeOn (ap j c) (ap' j' c)) →
    AgreeOn (applyItems mk ap js) (applyItems mk' ap' js') := by
  intro js
  induction js with
  | nil => intro js' hl _; cases js' with | nil => exact .refl _ | cons => simp at hl
  | cons j js ih =>
    intro js' hl h
    cases js' with
    | nil => simp at hl
    | cons j' js' =>
      unfold applyItems
      refine hm.bind fun v0 _ => (((h 0 j j' _ rfl rfl).bind fun x _ => .refl _)).bind fun v _ => ?_
      exact (ih (by simpa using hl) fun i a b c ha hb => h (i + 1) a b c ha hb).bind fun _ _ => .refl _

theorem applyEntries_agree {ap ap' : Json → Option Val → Made (Option Val)} :
    ∀ {kvs kvs' : List (Str × Json)}, kvs.map Prod.fst = kvs'.map Prod.fst →
    (∀ (i : Nat) x y c, kvs[i]? = some x → kvs'[i]? = some y → AgreeOn (ap x.2 c) (ap' y.2 c)) →
    ∀ m, AgreeOn (applyEntries ap kvs m) (applyEntries ap' kvs' m) := by
  intro kvs
  induction kvs with
  | nil => intro kvs' hk _ m; cases kvs' with | nil => exact .refl _ | cons => simp at hk
  | cons x kvs ih =>
    intro kvs' hk h m
    cases kvs' with
    | nil => simp at hk
    | cons y kvs' =>
      obtain ⟨k, j⟩ := x
      obtain ⟨k', j'⟩ := y
      simp only [List.map_cons, List.cons.injEq] at hk
      obtain ⟨rfl, hk⟩ := hk
      unfold applyEntries
      refine (h 0 _ _ _ rfl rfl).bind fun o _ => ?_
      have := ih hk (fun i a b c ha hb => h (i + 1) a b c ha hb)
      cases o with
      | none => exact this m
      | some v => exact this _

/-- One step of `applyEntries`. -/
def entryStep (ap : Json → Option Val → Made (Option Val)) (x : Str × Json) (m : List (List Byte × Val)) :
    Made (List (List Byte × Val)) :=
  match ap x.2 (mapGet m (utf8 x.1)) with
  | .error e => .error e
  | .ok none => .ok m
  | .ok (some v) => .ok (mapInsert (utf8 x.1) v m)

theorem applyEntries_cons (ap : Json → Option Val → Made (Option Val)) (x : Str × Json) (kvs : List (Str × Json))
    (m : List (List Byte × Val)) : applyEntries ap (x :: kvs) m = entryStep ap x m >>= applyEntries ap kvs := by
  obtain ⟨k, j⟩ := x
  unfold applyEntries entryStep
  cases ap j (mapGet m (utf8 k)) with
  | error e => rfl
  | ok o => cases o <;> rfl

theorem entryStep_comm {ap : Json → Option Val → Made (Option Val)} {x y : Str × Json} (h : x.1 ≠ y.1)
    (m : List (List Byte × Val)) : AgreeOn (entryStep ap x m >>= entryStep ap y) (entryStep ap y m >>= entryStep ap x) := by
  have hk : utf8 x.1 ≠ utf8 y.1 := fun e => h (utf8_inj e)
  have g1 : ∀ v : Val, mapGet (mapInsert (utf8 x.1) v m) (utf8 y.1) = mapGet m (utf8 y.1) := by
    intro v; rw [mapGet_insert, if_neg hk]
  have g2 : ∀ v : Val, mapGet (mapInsert (utf8 y.1) v m) (utf8 x.1) = mapGet m (utf8 x.1) := by
    intro v; rw [mapGet_insert, if_neg (Ne.symm hk)]
  intro r
  cases hx : ap x.2 (mapGet m (utf8 x.1)) with
  | error e =>
    cases hy : ap y.2 (mapGet m (utf8 y.1)) with
    | error e' => simp only [entryStep, hx, hy]; constructor <;> intro h <;> cases h
    | ok o => cases o <;> simp only [entryStep, hx, hy, bind, Except.bind, g2] <;> constructor <;> intro h <;> cases h
  | ok o =>
    cases hy : ap y.2 (mapGet m (utf8 y.1)) with
    | error e' => cases o <;> simp only [entryStep, hx, hy, bind, Except.bind, g1] <;> constructor <;> intro h <;> cases h
    | ok o' =>
      cases o <;> cases o' <;> simp only [entryStep, hx, hy, bind, Except.bind, g1, g2]
      rw [mapInsert_comm _ _ hk]

theorem applyEntries_perm {ap : Json → Option Val → Made (Option Val)} {kvs kvs' : List (Str × Json)}
    (h : kvs.Perm kvs') (hn : (kvs.map Prod.fst).Nodup) (m) : AgreeOn (applyEntries ap kvs m) (applyEntries ap kvs' m) := by
  induction h generalizing m with
  | nil => exact .refl _
  | cons x _ ih =>
    rw [applyEntries_cons, applyEntries_cons]
    exact (AgreeOn.refl _).bind fun m' _ => ih (List.nodup_cons.1 hn).2 m'
  | swap x y l =>
    simp only [List.map_cons, List.nodup_cons, List.mem_cons, not_or] at hn
    have e : ∀ a b : Str × Json, applyEntries ap (a :: b :: l) m = (entryStep ap a m >>= entryStep ap b) >>= applyEntries ap l := by
      intro a b
      rw [applyEntries_cons]
      cases entryStep ap a m with
      | error e => rfl
      | ok m' => exact applyEntries_cons ap b l m'
    rw [e, e]
    exact (entryStep_comm (hn.1.1) m).bind fun _ _ => .refl _
  | trans h1 _ ih1 ih2 => exact (ih1 hn m).trans (ih2 ((h1.map _).nodup_iff.1 hn) m)

/-- Success of a loop that only checks each entry. -/
def Checks {β : Type} (P : β → Prop) (r : List β → Made Unit) : Prop := ∀ l, r l = .ok () ↔ ∀ x ∈ l, P x

theorem applyNilMap_checks (ap : Json → Made (Option Val)) :
    Checks (fun x : Str × Json => ap x.2 = .ok none) (applyNilMap ap) := by
  intro l
  induction l with
  | nil => simp [applyNilMap]
  | cons x l ih =>
    obtain ⟨k, j⟩ := x
    unfold applyNilMap
    cases h : ap j with
    | error e => simp [h]; intro h; cases h
    | ok o =>
      cases o with
      | none => simp only [List.mem_cons, forall_eq_or_imp, h, true_and, ← ih]; exact Iff.rfl
      | some v => simp [h]; intro h; cases h

theorem applyEntryFields_checks (fs : List Field) (ap : Json → Ty → Made (Option Val)) :
    Checks (fun x : Str × Json => ∃ i f, fieldByName fs x.1 = some (i, f) ∧ ap x.2 f.ty = .ok none) (applyEntryFields fs ap) := by
  intro l
  induction l with
  | nil => simp [applyEntryFields]
  | cons x l ih =>
    obtain ⟨k, j⟩ := x
    unfold applyEntryFields
    cases hf : fieldByName fs k with
    | none => simp [hf]
    | some p =>
      obtain ⟨i, f⟩ := p
      simp only
      cases h : ap j f.ty with
      | error e =>
        refine ⟨fun h' => (by cases h'), fun h' => ?_⟩
        obtain ⟨i', f', e1, e2⟩ := h' (k, j) (by simp)
        rw [hf] at e1; cases e1; rw [h] at e2; cases e2
      | ok o =>
        cases o with
        | none =>
          simp only [List.mem_cons, forall_eq_or_imp, ← ih, hf]
          constructor
          · exact fun h' => ⟨⟨i, f, rfl, h⟩, h'⟩
          · exact fun h' => h'.2
        | some v =>
          refine ⟨fun h' => (by cases h'), fun h' => ?_⟩
          obtain ⟨i', f', e1, e2⟩ := h' (k, j) (by simp)
          rw [hf] at e1; cases e1; rw [h] at e2; cases e2

theorem unit_agree {a b : Made Unit} (h : a = .ok () ↔ b = .ok ()) : AgreeOn a b := fun _ => h

/-- One step of `applyFields`. -/
def fieldStep (fs : List Field) (ap : Json → Ty → Option Val → Made (Option Val)) (x : Str × Json) (vs : List Val) :
    Made (List Val) :=
  match fieldByName fs x.1 with
  | none => .error .crash
  | some (i, f) => (onField (ap x.2 f.ty) vs[i]?) >>= fun v => .ok (vs.set i v)

theorem applyFields_cons (fs : List Field) (ap : Json → Ty → Option Val → Made (Option Val)) (x : Str × Json)
    (kvs : List (Str × Json)) (vs : List Val) :
    applyFields fs ap (x :: kvs) vs = fieldStep fs ap x vs >>= applyFields fs ap kvs := by
  obtain ⟨k, j⟩ := x
  unfold applyFields fieldStep
  cases fieldByName fs k with
  | none => rfl
  | some p =>
    obtain ⟨i, f⟩ := p
    simp only
    cases (onField (ap j f.ty) vs[i]?) <;> rfl

theorem fieldStep_comm {fs : List Field} {ap : Json → Ty → Option Val → Made (Option Val)} {x y : Str × Json}
    (h : ∀ i f g, fieldByName fs x.1 = some (i, f) → fieldByName fs y.1 = some (i, g) → False) (vs : List Val) :
    AgreeOn (fieldStep fs ap x vs >>= fieldStep fs ap y) (fieldStep fs ap y vs >>= fieldStep fs ap x) := by
  intro r
  cases hx : fieldByName fs x.1 with
  | none =>
    simp only [fieldStep, hx]
    cases hy : fieldByName fs y.1 with
    | none => simp only; constructor <;> intro h <;> cases h
    | some p =>
      simp only
      cases (onField (ap y.2 p.2.ty) vs[p.1]?) <;> simp [bind, Except.bind, fieldStep, hx]
  | some p =>
    obtain ⟨i, f⟩ := p
    cases hy : fieldByName fs y.1 with
    | none =>
      simp only [fieldStep, hx, hy]
      cases (onField (ap x.2 f.ty) vs[i]?) <;> simp [bind, Except.bind, fieldStep, hy]
    | some p' =>
      obtain ⟨i', f'⟩ := p'
      have hi : i ≠ i' := fun e => h i f f' hx (e ▸ hy)
      have sx : ∀ ws : List Val, ws[i]? = vs[i]? → fieldStep fs ap x ws =
          (onField (ap x.2 f.ty) vs[i]?) >>= fun v => .ok (ws.set i v) := by
        intro ws e; simp only [fieldStep, hx, e]
      have sy : ∀ ws : List Val, ws[i']? = vs[i']? → fieldStep fs ap y ws =
          (onField (ap y.2 f'.ty) vs[i']?) >>= fun v => .ok (ws.set i' v) := by
        intro ws e; simp only [fieldStep, hy, e]
      rw [sx vs rfl, sy vs rfl]
      cases h1 : (onField (ap x.2 f.ty) vs[i]?) with
      | error e =>
        cases h2 : (onField (ap y.2 f'.ty) vs[i']?) with
        | error e' => constructor <;> intro h <;> cases h
        | ok v' =>
          show (Except.error e : Made (List Val)) = .ok r ↔ fieldStep fs ap x (vs.set i' v') = .ok r
          rw [sx _ (List.getElem?_set_ne (Ne.symm hi)), h1]
          constructor <;> intro h <;> cases h
      | ok v =>
        cases h2 : (onField (ap y.2 f'.ty) vs[i']?) with
        | error e' =>
          show fieldStep fs ap y (vs.set i v) = .ok r ↔ (Except.error e' : Made (List Val)) = .ok r
          rw [sy _ (List.getElem?_set_ne hi), h2]
          constructor <;> intro h <;> cases h
        | ok v' =>
          show fieldStep fs ap y (vs.set i v) = .ok r ↔ fieldStep fs ap x (vs.set i' v') = .ok r
          rw [sy _ (List.getElem?_set_ne hi), sx _ (List.getElem?_set_ne (Ne.symm hi)), h1, h2]
          show (Except.ok ((vs.set i v).set i' v') : Made (List Val)) = .ok r ↔ Except.ok ((vs.set i' v').set i v) = .ok r
          rw [List.set_comm _ _ hi]

theorem applyFields_perm {fs : List Field} {ap : Json → Ty → Option Val → Made (Option Val)} {kvs kvs' : List (Str × Json)}
    (h : kvs.Perm kvs') (hn : (kvs.map Prod.fst).Nodup)
    (hc : ∀ x ∈ kvs, ∀ y ∈ kvs, x.1 ≠ y.1 → ∀ i f g, fieldByName fs x.1 = some (i, f) → fieldByName fs y.1 = some (i, g) → False)
    (vs) : AgreeOn (applyFields fs ap kvs vs) (applyFields fs ap kvs' vs) := by
  induction h generalizing vs with
  | nil => exact .refl _
  | cons x _ ih =>
    rw [applyFields_cons, applyFields_cons]
    exact (AgreeOn.refl _).bind fun m' _ =>
      ih (List.nodup_cons.1 hn).2 (fun a ha b hb => hc a (List.mem_cons_of_mem _ ha) b (List.mem_cons_of_mem _ hb)) m'
  | swap x y l =>
    simp only [List.map_cons, List.nodup_cons, List.mem_cons, not_or] at hn
    have e : ∀ a b : Str × Json, applyFields fs ap (a :: b :: l) vs = (fieldStep fs ap a vs >>= fieldStep fs ap b) >>= applyFields fs ap l := by
      intro a b
      rw [applyFields_cons]
      cases fieldStep fs ap a vs with
      | error e => rfl
      | ok m' => exact applyFields_cons fs ap b l m'
    rw [e, e]
    exact (fieldStep_comm (hc y (by simp) x (by simp) hn.1.1) vs).bind fun _ _ => .refl _
  | trans h1 _ ih1 ih2 =>
    exact (ih1 hn hc vs).trans (ih2 ((h1.map _).nodup_iff.1 hn)
      (fun a ha b hb => hc a (h1.mem_iff.2 ha) b (h1.mem_iff.2 hb)) vs)

/-! ### The values of the objects, and the definitions -/

theorem Shuffled.of_arr {js : List Json} {j' : Json} (h : Shuffled (.arr js) j') : ∃ js', j' = .arr js' ∧
    js.length = js'.length ∧ ∀ (i : Nat) j j', js[i]? = some j → js'[i]? = some j' → Shuffled j j' := by
  cases h with
  | refl => exact ⟨js, rfl, rfl, fun i a b h1 h2 => by rw [h1] at h2; cases h2; exact .refl⟩
  | arr h1 h2 => exact ⟨_, rfl, h1, h2⟩

theorem Shuffled.of_obj {kvs : List (Str × Json)} {j' : Json} (h : Shuffled (.obj kvs) j') : ∃ (mid kvs' : List (Str × Json)), j' = .obj kvs' ∧
    kvs.map Prod.fst = mid.map Prod.fst ∧ (∀ (i : Nat) x y, kvs[i]? = some x → mid[i]? = some y → Shuffled x.2 y.2) ∧
    mid.Perm kvs' := by
  cases h with
  | refl => exact ⟨kvs, kvs, rfl, rfl, fun i a b h1 h2 => by rw [h1] at h2; cases h2; exact .refl, .refl _⟩
  | obj h1 h2 h3 => exact ⟨_, _, rfl, h1, h2, h3⟩

/-- Anything but arrays and objects stays as it is. -/
theorem Shuffled.plain {j j' : Json} (h : Shuffled j j') : j = j' ∨
    ((∃ js, j = .arr js) ∧ ∃ js, j' = .arr js) ∨ ((∃ kvs, j = .obj kvs) ∧ ∃ kvs, j' = .obj kvs) := by
  cases h with
  | refl => exact .inl rfl
  | arr => exact .inr (.inl ⟨⟨_, rfl⟩, _, rfl⟩)
  | obj => exact .inr (.inr ⟨⟨_, rfl⟩, _, rfl⟩)

theorem fieldByNameFrom_shuffled {fs fs' : List Field} (h : FieldsShuffled fs fs') (k : Str) : ∀ i,
    (fieldByNameFrom i fs k = none ∧ fieldByNameFrom i fs' k = none) ∨
    ∃ n f f', fieldByNameFrom i fs k = some (n, f) ∧ fieldByNameFrom i fs' k = some (n, f') ∧ f.ty = f'.ty := by
  induction h with
  | nil => exact fun i => .inl ⟨rfl, rfl⟩
  | @cons f f' fs fs' hf _ ih =>
    intro i
    unfold fieldByNameFrom
    rw [← hf.name, ← hf.aliases]
    by_cases hc : f.name = k ∨ k ∈ f.aliases
    · rw [if_pos hc, if_pos hc]; exact .inr ⟨_, _, _, rfl, rfl, hf.ty⟩
    · rw [if_neg hc, if_neg hc]; exact ih _

theorem fieldByName_shuffled {fs fs' : List Field} (h : FieldsShuffled fs fs') (k : Str) :
    (fieldByName fs k = none ∧ fieldByName fs' k = none) ∨
    ∃ n f f', fieldByName fs k = some (n, f) ∧ fieldByName fs' k = some (n, f') ∧ f.ty = f'.ty :=
  fieldByNameFrom_shuffled h k 0

theorem applyFields_agree {fs fs' : List Field} (hs : FieldsShuffled fs fs') {ap ap' : Json → Ty → Option Val → Made (Option Val)} :
    ∀ {kvs kvs' : List (Str × Json)}, kvs.map Prod.fst = kvs'.map Prod.fst →
    (∀ (i : Nat) x y n f c, kvs[i]? = some x → kvs'[i]? = some y → fieldByName fs x.1 = some (n, f) →
      AgreeOn (ap x.2 f.ty c) (ap' y.2 f.ty c)) →
    ∀ vs, AgreeOn (applyFields fs ap kvs vs) (applyFields fs' ap' kvs' vs) := by
  intro kvs
  induction kvs with
  | nil => intro kvs' hk _ m; cases kvs' with | nil => exact .refl _ | cons => simp at hk
  | cons x kvs ih =>
    intro kvs' hk h vs
    cases kvs' with
    | nil => simp at hk
    | cons y kvs' =>
      obtain ⟨k, j⟩ := x
      obtain ⟨k', j'⟩ := y
      simp only [List.map_cons, List.cons.injEq] at hk
      obtain ⟨rfl, hk⟩ := hk
      unfold applyFields
      rcases fieldByName_shuffled hs k with ⟨e1, e2⟩ | ⟨n, f, f', e1, e2, e3⟩
      · rw [e1, e2]; exact .refl _
      · rw [e1, e2]
        dsimp only
        rw [← e3]
        exact ((AgreeOn.refl (present vs[n]?)).bind fun v _ => (h 0 _ _ n f _ rfl rfl e1).bind fun x _ => .refl _).bind fun v _ =>
          ih hk (fun i a b n f c ha hb => h (i + 1) a b n f c ha hb) _

theorem keys_mem {kvs mid : List (Str × Json)} (hk : kvs.map Prod.fst = mid.map Prod.fst) {y} (hy : y ∈ mid) :
    ∃ (i : Nat) (x : Str × Json), kvs[i]? = some x ∧ mid[i]? = some y ∧ x ∈ kvs ∧ x.1 = y.1 := by
  obtain ⟨i, hi⟩ := List.mem_iff_getElem?.1 hy
  have := congrArg (fun l => l[i]?) hk
  simp only [List.getElem?_map, hi, Option.map_some] at this
  cases hx : kvs[i]? with
  | none => rw [hx] at this; cases this
  | some x =>
    rw [hx] at this
    simp only [Option.map_some, Option.some.injEq] at this
    exact ⟨i, x, hx, hi, List.mem_iff_getElem?.2 ⟨i, hx⟩, this⟩

theorem newFields_agree {mk mk' : Ty → Made Val} {ap ap' : Json → Ty → Option Val → Made (Option Val)} {fs fs' : List Field}
    (hs : FieldsShuffled fs fs') (hm : ∀ t, AgreeOn (mk t) (mk' t))
    (h : ∀ f ∈ fs, ∀ j j' c, f.dflt = some j → Shuffled j j' → AgreeOn (ap j f.ty c) (ap' j' f.ty c)) :
    AgreeOn (newFields mk ap fs) (newFields mk' ap' fs') := by
  induction hs with
  | nil => exact .refl _
  | @cons f f' fs fs' hf _ ih =>
    unfold newFields
    refine AgreeOn.bind ?_ fun v0 _ => AgreeOn.bind ?_ fun v _ =>
      (ih fun g hg => h g (List.mem_cons_of_mem _ hg)).bind fun _ _ => .refl _
    · unfold freshField
      rw [← hf.ty]
      split
      · exact .refl _
      · exact hm _
    · unfold fieldDefault
      rw [← hf.ty]
      rcases hf.dflt with ⟨e1, e2⟩ | ⟨j, j', e1, e2, e3⟩
      · rw [e1, e2]; exact .refl _
      · rw [e1, e2]
        exact (h f (by simp) j j' _ e1 e3).bind fun _ _ => .refl _

variable {nm : Namer} {env env' : Env}

theorem zeroVal_shuffled (he : EnvShuffled env env') (t : Ty) : zeroVal env t = zeroVal env' t := by
  cases t <;> try rfl
  rename_i q
  simp only [zeroVal]
  rcases he q with ⟨h1, h2⟩ | ⟨d, d', h1, h2, -, h3⟩
  · rw [h1, h2]
  · rw [h1, h2]
    dsimp only
    generalize d.kind = k at h3
    generalize d'.kind = k' at h3
    cases h3 <;> rfl

theorem number_shuffled {j j' : Json} (h : Shuffled j j') : j.number = j'.number := by
  rcases h.plain with rfl | ⟨⟨_, rfl⟩, _, rfl⟩ | ⟨⟨_, rfl⟩, _, rfl⟩ <;> rfl

/-- Whatever the orders are, constructors and `SetDefault` come to the same. -/
theorem order_agree (he : EnvShuffled env env') (hc : DefaultsClear env) : ∀ n,
    (∀ t, AgreeOn (construct nm env n t) (construct nm env' n t)) ∧
    ∀ j j' t addr cur, Shuffled j j' → ¬Ambiguous env j t →
      AgreeOn (applyDefault nm env n j t addr cur) (applyDefault nm env' n j' t addr cur) := by
  intro n
  induction n with
  | zero => exact ⟨fun t => by simp only [construct]; exact .refl _, fun j j' t a c _ _ => by
      simp only [applyDefault]; exact .refl _⟩
  | succ n ih =>
    obtain ⟨ihc, iha⟩ := ih
    constructor
    · intro t
      cases t <;> try (simp only [construct, zeroVal]; exact .refl _)
      rename_i q
      simp only [construct]
      rcases he q with ⟨h1, h2⟩ | ⟨d, d', h1, h2, -, h3⟩
      · rw [h1, h2]; exact .refl _
      · rw [h1, h2]
        dsimp only
        rw [zeroVal_shuffled he]
        have hd := hc q d
        generalize hk : d.kind = k at h3
        generalize d'.kind = k' at h3
        cases h3 with
        | record hs =>
          exact (newFields_agree hs ihc fun f hf j j' c hj hjs => iha j j' _ _ _ hjs (hd _ f j h1 hk hf hj)).map _
        | enum => exact .refl _
        | fixed => exact .refl _
    · intro j j' t addr cur hs ha
      cases t with
      | null => simp only [applyDefault]; exact .refl _
      | bool | bytes | string =>
        rcases hs.plain with rfl | ⟨⟨_, rfl⟩, _, rfl⟩ | ⟨⟨_, rfl⟩, _, rfl⟩ <;> (simp only [applyDefault]; exact .refl _)
      | int | long => simp only [applyDefault, intDefault, number_shuffled hs]; exact .refl _
      | float | double => simp only [applyDefault, floatDefault, number_shuffled hs]; exact .refl _
      | array it =>
        rcases hs.plain with rfl | ⟨⟨js, rfl⟩, _, rfl⟩ | ⟨⟨_, rfl⟩, _, rfl⟩
        · cases j <;> simp only [applyDefault] <;> try exact .refl _
          rename_i js
          refine (applyItems_agree (ihc it) rfl fun i a b c h1 h2 => iha a b it true c ?_ fun h => ha (.item (List.mem_iff_getElem?.2 ⟨i, h1⟩) h)).map _
          rw [h1] at h2; cases h2; exact .refl
        · obtain ⟨js', e, hl, hp⟩ := hs.of_arr
          cases e
          simp only [applyDefault]
          exact (applyItems_agree (ihc it) hl fun i a b c h1 h2 => iha a b it true c (hp i a b h1 h2)
            fun h => ha (.item (List.mem_iff_getElem?.2 ⟨i, h1⟩) h)).map _
        · simp only [applyDefault]; exact .refl _
      | map it =>
        cases j with
        | obj kvs =>
          obtain ⟨mid, kvs', rfl, hk, hp, hm⟩ := hs.of_obj
          have hn : (kvs.map Prod.fst).Nodup := Classical.byContradiction fun h => ha (.twice h)
          have one : ∀ (i : Nat) x y c, kvs[i]? = some x → mid[i]? = some y →
              AgreeOn (applyDefault nm env n x.2 it false c) (applyDefault nm env' n y.2 it false c) :=
            fun i x y c h1 h2 => iha _ _ it false c (hp i x y h1 h2) fun h => ha (.value (List.mem_iff_getElem?.2 ⟨i, h1⟩) h)
          have nilmap : ∀ c : Option Val, AgreeOn ((applyNilMap (fun j => applyDefault nm env n j it false none) kvs).map fun _ => c)
              ((applyNilMap (fun j => applyDefault nm env' n j it false none) kvs').map fun _ => c) := by
            intro c
            refine (unit_agree ?_).map _
            rw [applyNilMap_checks _ kvs, applyNilMap_checks _ kvs']
            constructor
            · intro h y hy
              obtain ⟨i, x, h1, h2, h3, -⟩ := keys_mem hk (hm.mem_iff.2 hy)
              exact (one i x y none h1 h2 _).1 (h x h3)
            · intro h x hx
              obtain ⟨i, y, h2, h1, h3, -⟩ := keys_mem hk.symm hx
              exact (one i x y none h1 h2 _).2 (h y (hm.mem_iff.1 h3))
          cases cur with
          | none => simp only [applyDefault]; exact nilmap _
          | some c =>
            cases c <;> simp only [applyDefault] <;> try exact nilmap _
            rename_i m
            exact ((applyEntries_agree hk one m).trans (applyEntries_perm hm (hk ▸ hn) m)).map _
        | _ =>
          rcases hs.plain with rfl | ⟨⟨_, h⟩, _, rfl⟩ | ⟨⟨_, h⟩, _, rfl⟩ <;> first | cases h | skip
          all_goals simp only [applyDefault]; exact .refl _
      | union ts =>
        cases ts with
        | nil => simp only [applyDefault]; exact .refl _
        | cons t ts =>
          simp only [applyDefault]
          split
          · exact .refl _
          split
          · exact .refl _
          · exact (ihc t).bind fun v0 _ => (iha j j' t true _ hs fun h => ha (.member rfl h)).bind fun _ _ => .refl _
      | ref q =>
        simp only [applyDefault]
        rcases he q with ⟨h1, h2⟩ | ⟨d, d', h1, h2, hnm, h3⟩
        · rw [h1, h2]; exact .refl _
        · rw [h1, h2]
          dsimp only
          rw [← hnm]
          generalize hkd : d.kind = k at h3
          generalize d'.kind = k' at h3
          cases h3 with
          | enum | fixed =>
            rcases hs.plain with rfl | ⟨⟨_, rfl⟩, _, rfl⟩ | ⟨⟨_, rfl⟩, _, rfl⟩ <;> exact .refl _
          | @record fs fs' hfs =>
            cases j with
            | obj kvs =>
              obtain ⟨mid, kvs', rfl, hk, hp, hm⟩ := hs.of_obj
              have hn : (kvs.map Prod.fst).Nodup := Classical.byContradiction fun h => ha (.twice h)
              have one : ∀ (i : Nat) x y m f addr c, kvs[i]? = some x → mid[i]? = some y → fieldByName fs x.1 = some (m, f) →
                  AgreeOn (applyDefault nm env n x.2 f.ty addr c) (applyDefault nm env' n y.2 f.ty addr c) :=
                fun i x y m f addr c h1' h2' h3' => iha _ _ _ addr c (hp i x y h1' h2')
                  fun h => ha (.inner h1 hkd (List.mem_iff_getElem?.2 ⟨i, h1'⟩) h3' h)
              have entry : ∀ c : Option Val, AgreeOn ((applyEntryFields fs (fun j t => applyDefault nm env n j t false none) kvs).map fun _ => c)
                  ((applyEntryFields fs' (fun j t => applyDefault nm env' n j t false none) kvs').map fun _ => c) := by
                intro c
                refine (unit_agree ?_).map _
                rw [applyEntryFields_checks _ _ kvs, applyEntryFields_checks _ _ kvs']
                constructor
                · intro h y hy
                  obtain ⟨i, x, e1, e2, e3, e4⟩ := keys_mem hk (hm.mem_iff.2 hy)
                  obtain ⟨m, f, g1, g2⟩ := h x e3
                  rcases fieldByName_shuffled hfs x.1 with ⟨k1, -⟩ | ⟨n', f', f'', k1, k2, k3⟩
                  · rw [g1] at k1; cases k1
                  · rw [g1] at k1; cases k1
                    refine ⟨m, f'', e4 ▸ k2, ?_⟩
                    rw [← k3]
                    exact (one i x y m f false none e1 e2 g1 _).1 g2
                · intro h x hx
                  obtain ⟨i, y, e2, e1, e3, e4⟩ := keys_mem hk.symm hx
                  obtain ⟨m, f'', g1, g2⟩ := h y (hm.mem_iff.1 e3)
                  rw [e4] at g1
                  rcases fieldByName_shuffled hfs x.1 with ⟨-, k1⟩ | ⟨n', f, f', k2, k1, k3⟩
                  · rw [g1] at k1; cases k1
                  · rw [g1] at k1; cases k1
                    refine ⟨m, f, k2, ?_⟩
                    rw [← k3] at g2
                    exact (one i x y m f false none e1 e2 k2 _).2 g2
              have clash : ∀ x ∈ mid, ∀ y ∈ mid, x.1 ≠ y.1 → ∀ i f g, fieldByName fs' x.1 = some (i, f) →
                  fieldByName fs' y.1 = some (i, g) → False := by
                intro x hx y hy hxy i f g e1 e2
                obtain ⟨_, x0, -, -, hx0, ex⟩ := keys_mem hk hx
                obtain ⟨_, y0, -, -, hy0, ey⟩ := keys_mem hk hy
                rcases fieldByName_shuffled hfs x.1 with ⟨-, k1⟩ | ⟨_, f1, _, k1, k2, -⟩
                · rw [e1] at k1; cases k1
                rcases fieldByName_shuffled hfs y.1 with ⟨-, k3⟩ | ⟨_, f2, _, k3, k4, -⟩
                · rw [e2] at k3; cases k3
                rw [e1] at k2; cases k2
                rw [e2] at k4; cases k4
                exact ha (.field h1 hkd hx0 hy0 (by rw [ex, ey]; exact hxy) (by rw [ex]; exact k1) (by rw [ey]; exact k3))
              cases addr with
              | false => exact entry _
              | true =>
                cases cur with
                | none => exact entry _
                | some c =>
                  cases c <;> try exact entry _
                  rename_i vs
                  exact ((applyFields_agree hfs hk (fun i x y m f c h1 h2 h3 => one i x y m f true c h1 h2 h3) vs).trans
                    (applyFields_perm hm (hk ▸ hn) clash vs)).map _
            | _ =>
              rcases hs.plain with rfl | ⟨⟨_, h⟩, _, rfl⟩ | ⟨⟨_, h⟩, _, rfl⟩ <;> first | cases h | skip
              all_goals exact .refl _

end Verif
