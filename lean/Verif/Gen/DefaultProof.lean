import Verif.Gen.Default
import Verif.Gen.MapLemmas
import Verif.Gen.ResolveFields
import Verif.Spec.Default
import Verif.Go.LiteralProof
/-
What the default statements set.
-/
namespace Verif

theorem bind_ok {α β : Type} {x : Made α} {f : α → Made β} {b : β} (h : (x >>= f) = .ok b) : ∃ a, x = .ok a ∧ f a = .ok b := by
  cases x with
  | error e => cases h
  | ok a => exact ⟨a, rfl, h⟩

theorem ok_bind {α β : Type} {x : Made α} {f : α → Made β} {a : α} (h : x = .ok a) : (x >>= f) = f a := by
  subst h; rfl

theorem map_ok {α β : Type} {x : Made α} {f : α → β} {b : β} (h : x.map f = .ok b) : ∃ a, x = .ok a ∧ f a = b := by
  cases x with
  | error e => cases h
  | ok a => exact ⟨a, rfl, by cases h; rfl⟩

theorem ok_map {α β : Type} {x : Made α} {f : α → β} {a : α} (h : x = .ok a) : x.map f = .ok (f a) := by
  subst h; rfl

theorem present_ok {x : Option Val} {v : Val} (h : present x = .ok v) : x = some v := by
  cases x <;> cases h; rfl

/-! More fuel changes nothing. -/

section
variable {mk mk' : Made Val} {ap ap' : Json → Option Val → Made (Option Val)}

theorem applyItems_mono (h1 : ∀ v, mk = .ok v → mk' = .ok v) (h2 : ∀ j c v, ap j c = .ok v → ap' j c = .ok v) :
    ∀ {js vs}, applyItems mk ap js = .ok vs → applyItems mk' ap' js = .ok vs
  | [], vs, h => h
  | j :: js, vs, h => by
    unfold applyItems at h ⊢
    obtain ⟨v0, e0, h⟩ := bind_ok h
    obtain ⟨v, e1, h⟩ := bind_ok h
    obtain ⟨o, e1, e1'⟩ := bind_ok e1
    obtain ⟨vs', e2, h⟩ := bind_ok h
    rw [ok_bind (h1 _ e0), ok_bind (by rw [ok_bind (h2 _ _ _ e1)]; exact e1'), ok_bind (applyItems_mono h1 h2 e2)]
    exact h

theorem applyEntries_mono (h2 : ∀ j c v, ap j c = .ok v → ap' j c = .ok v) :
    ∀ {kvs m m'}, applyEntries ap kvs m = .ok m' → applyEntries ap' kvs m = .ok m'
  | [], m, m', h => h
  | (k, j) :: kvs, m, m', h => by
    unfold applyEntries at h ⊢
    obtain ⟨o, e, h⟩ := bind_ok h
    rw [ok_bind (h2 _ _ _ e)]
    cases o with
    | none => exact applyEntries_mono h2 h
    | some v => exact applyEntries_mono h2 h
end

theorem applyNilMap_mono {ap ap' : Json → Made (Option Val)} (h2 : ∀ j v, ap j = .ok v → ap' j = .ok v) :
    ∀ {kvs}, applyNilMap ap kvs = .ok () → applyNilMap ap' kvs = .ok ()
  | [], h => h
  | (k, j) :: kvs, h => by
    unfold applyNilMap at h ⊢
    obtain ⟨o, e, h⟩ := bind_ok h
    rw [ok_bind (h2 _ _ e)]
    cases o with
    | none => exact applyNilMap_mono h2 h
    | some v => cases h

theorem applyFields_mono {fs : List Field} {ap ap' : Json → Ty → Option Val → Made (Option Val)}
    (h2 : ∀ j t c v, ap j t c = .ok v → ap' j t c = .ok v) :
    ∀ {kvs vs vs'}, applyFields fs ap kvs vs = .ok vs' → applyFields fs ap' kvs vs = .ok vs'
  | [], vs, vs', h => h
  | (k, j) :: kvs, vs, vs', h => by
    unfold applyFields at h ⊢
    cases hf : fieldByName fs k with
    | none => rw [hf] at h; cases h
    | some x =>
      obtain ⟨i, f⟩ := x
      rw [hf] at h
      obtain ⟨v, e1, h⟩ := bind_ok h
      obtain ⟨v0, e0, e1⟩ := bind_ok e1
      obtain ⟨o, e1, e1'⟩ := bind_ok e1
      dsimp only
      rw [ok_bind (by unfold onField; rw [ok_bind e0, ok_bind (h2 _ _ _ _ e1)]; exact e1')]
      exact applyFields_mono h2 h

theorem applyEntryFields_mono {fs : List Field} {ap ap' : Json → Ty → Made (Option Val)}
    (h2 : ∀ j t v, ap j t = .ok v → ap' j t = .ok v) :
    ∀ {kvs}, applyEntryFields fs ap kvs = .ok () → applyEntryFields fs ap' kvs = .ok ()
  | [], h => h
  | (k, j) :: kvs, h => by
    unfold applyEntryFields at h ⊢
    cases hf : fieldByName fs k with
    | none => rw [hf] at h; cases h
    | some x =>
      obtain ⟨i, f⟩ := x
      rw [hf] at h
      obtain ⟨o, e, h⟩ := bind_ok h
      dsimp only
      rw [ok_bind (h2 _ _ _ e)]
      cases o with
      | none => exact applyEntryFields_mono h2 h
      | some v => cases h

theorem newFields_mono {mk mk' : Ty → Made Val} {ap ap' : Json → Ty → Option Val → Made (Option Val)}
    (h1 : ∀ t v, mk t = .ok v → mk' t = .ok v) (h2 : ∀ j t c v, ap j t c = .ok v → ap' j t c = .ok v) :
    ∀ {fs vs}, newFields mk ap fs = .ok vs → newFields mk' ap' fs = .ok vs
  | [], vs, h => h
  | f :: fs, vs, h => by
    unfold newFields at h ⊢
    obtain ⟨v0, e0, h⟩ := bind_ok h
    obtain ⟨v, e1, h⟩ := bind_ok h
    obtain ⟨vs', e2, h⟩ := bind_ok h
    have e0' : freshField mk' f = .ok v0 := by
      unfold freshField at e0 ⊢
      split at e0
      · rename_i hn; rw [if_pos hn]; exact e0
      · rename_i hn; rw [if_neg hn]; exact h1 _ _ e0
    have e1' : fieldDefault ap' f v0 = .ok v := by
      unfold fieldDefault at e1 ⊢
      cases hd : f.dflt with
      | none => rw [hd] at e1; exact e1
      | some j =>
        rw [hd] at e1
        obtain ⟨o, e1, e1'⟩ := bind_ok e1
        dsimp only
        rw [ok_bind (h2 _ _ _ _ e1)]; exact e1'
    rw [ok_bind e0', ok_bind e1', ok_bind (newFields_mono h1 h2 e2)]
    exact h

theorem default_mono (nm : Namer) (env : Env) : ∀ n m, n ≤ m →
    (∀ t v, construct nm env n t = .ok v → construct nm env m t = .ok v) ∧
    (∀ j t a c v, applyDefault nm env n j t a c = .ok v → applyDefault nm env m j t a c = .ok v) := by
  intro n
  induction n with
  | zero => intro m _; exact ⟨fun t v h => by simp [construct] at h, fun j t a c v h => by simp [applyDefault] at h⟩
  | succ n ih =>
    intro m hm
    obtain ⟨m, rfl⟩ : ∃ m', m = m' + 1 := ⟨m - 1, by omega⟩
    obtain ⟨ih1, ih2⟩ := ih m (by omega)
    constructor
    · intro t v h
      cases t with
      | ref q =>
        simp only [construct] at h ⊢
        cases hq : env.find q with
        | none => rw [hq] at h; cases h
        | some d =>
          rw [hq] at h
          dsimp only at h ⊢
          cases hk : d.kind with
          | record fs =>
            rw [hk] at h
            dsimp only at h ⊢
            obtain ⟨vs, e, h⟩ := map_ok h
            rw [ok_map (newFields_mono ih1 (fun j t c v => ih2 j t true c v) e), h]
          | enum s e => rw [hk] at h; exact h
          | fixed k => rw [hk] at h; exact h
      | _ => exact h
    · intro j t a c v h
      cases t with
      | array it =>
        simp only [applyDefault] at h ⊢
        cases j with
        | arr js =>
          obtain ⟨vs, e, h⟩ := map_ok h
          dsimp only
          rw [ok_map (applyItems_mono (ih1 it) (fun j c v => ih2 j it true c v) e), h]
        | _ => cases h
      | map it =>
        simp only [applyDefault] at h ⊢
        cases j with
        | obj kvs =>
          dsimp only at h ⊢
          split at h
          · obtain ⟨vs, e, h⟩ := map_ok h
            rw [ok_map (applyEntries_mono (fun j c v => ih2 j it false c v) e), h]
          · obtain ⟨vs, e, h⟩ := map_ok h
            rw [ok_map (applyNilMap_mono (fun j v => ih2 j it false none v) e), h]
        | _ => cases h
      | union ts =>
        simp only [applyDefault] at h ⊢
        cases ts with
        | nil => cases h
        | cons t ts =>
          dsimp only at h ⊢
          split at h
          · rename_i hn; rw [if_pos hn]; exact h
          · rename_i hn
            rw [if_neg hn]
            split at h
            · cases h
            · rename_i hb
              rw [if_neg hb]
              obtain ⟨v0, e0, h⟩ := bind_ok h
              obtain ⟨v1, e1, h⟩ := bind_ok h
              rw [ok_bind (ih1 _ _ e0), ok_bind (ih2 _ _ _ _ _ e1)]
              exact h
      | ref q =>
        simp only [applyDefault] at h ⊢
        cases hq : env.find q with
        | none => rw [hq] at h; cases h
        | some d =>
          rw [hq] at h
          dsimp only at h ⊢
          cases hk : d.kind with
          | enum s e => rw [hk] at h; exact h
          | fixed k => rw [hk] at h; exact h
          | record fs =>
            rw [hk] at h
            dsimp only at h ⊢
            cases j with
            | obj kvs =>
              dsimp only at h ⊢
              split at h
              · obtain ⟨vs, e, h⟩ := map_ok h
                rw [ok_map (applyFields_mono (fun j t c v => ih2 j t true c v) e), h]
              · obtain ⟨vs, e, h⟩ := map_ok h
                rw [ok_map (applyEntryFields_mono (fun j t v => ih2 j t false none v) e), h]
            | _ => cases h
      | _ => simpa only [applyDefault] using h

theorem construct_mono {nm : Namer} {env : Env} {n m : Nat} {t : Ty} {v : Val} (h : construct nm env n t = .ok v) (hm : n ≤ m) :
    construct nm env m t = .ok v := (default_mono nm env n m hm).1 t v h

theorem apply_mono {nm : Namer} {env : Env} {n m : Nat} {j : Json} {t : Ty} {a : Bool} {c v : Option Val}
    (h : applyDefault nm env n j t a c = .ok v) (hm : n ≤ m) : applyDefault nm env m j t a c = .ok v :=
  (default_mono nm env n m hm).2 j t a c v h

/-! ASCII text. -/

theorem utf8_flat (s : Str) : utf8 s = (s.flatMap String.utf8EncodeChar).map UInt8.toBitVec := by
  unfold utf8
  simp [String.toUTF8, String.toByteArray_ofList, List.utf8Encode]

theorem utf8_ascii {s : Str} (h : ∀ c ∈ s, c.toNat < 128) : utf8 s = s.map fun c => BitVec.ofNat 8 c.toNat := by
  rw [utf8_flat]
  induction s with
  | nil => rfl
  | cons c s ih =>
    have hc := h c (by simp)
    rw [List.flatMap_cons, List.map_append, ih (fun c hc => h c (by simp [hc])), List.map_cons]
    have : String.utf8EncodeChar c = [c.val.toUInt8] := by
      unfold String.utf8EncodeChar
      dsimp only
      rw [if_pos (by show c.toNat ≤ 127; omega)]
      rfl
    rw [this]
    rfl

/-! The loops. -/

theorem applyItems_ok {mk : Made Val} {ap : Json → Option Val → Made (Option Val)} {c : Val} :
    ∀ {js : List Json} {vs : List Val}, (js ≠ [] → mk = .ok c) → js.length = vs.length →
    (∀ (i : Nat) j v, js[i]? = some j → vs[i]? = some v → ap j (some c) = .ok (some v)) →
    applyItems mk ap js = .ok vs
  | [], [], _, _, _ => rfl
  | [], _ :: _, _, hl, _ => by simp at hl
  | _ :: _, [], _, hl, _ => by simp at hl
  | j :: js, v :: vs, hm, hl, h => by
    unfold applyItems
    have h0 := hm (by simp)
    have h1 : (ap j (some c) >>= present) = .ok v := by
      rw [ok_bind (h 0 j v rfl rfl)]; rfl
    have h2 := applyItems_ok (mk := mk) (ap := ap) (c := c) (js := js) (vs := vs) (fun _ => h0) (by simpa using hl)
      (fun i j v hj hv => h (i + 1) j v (by simpa using hj) (by simpa using hv))
    rw [ok_bind h0, ok_bind h1, ok_bind h2]
    rfl

theorem applyEntries_ok {ap : Json → Option Val → Made (Option Val)} :
    ∀ {kvs : List (Str × Json)} {vs : List Val} {m : List (List Byte × Val)}, kvs.length = vs.length →
    (∀ (i : Nat) kv v c, kvs[i]? = some kv → vs[i]? = some v → ap kv.2 c = .ok (some v)) →
    applyEntries ap kvs m = .ok (mapInserts m ((kvs.map fun kv => utf8 kv.1).zip vs))
  | [], [], _, _, _ => rfl
  | [], _ :: _, _, hl, _ => by simp at hl
  | _ :: _, [], _, hl, _ => by simp at hl
  | (k, j) :: kvs, v :: vs, m, hl, h => by
    unfold applyEntries
    rw [ok_bind (h 0 (k, j) v _ rfl rfl)]
    exact applyEntries_ok (by simpa using hl) (fun i kv v c hj hv => h (i + 1) kv v c (by simpa using hj) (by simpa using hv))

theorem mapInserts_again (m es : List (List Byte × Val)) (hm : Sorted m) :
    mapInserts (mapInserts m es) es = mapInserts m es := by
  refine sorted_ext (sorted_inserts es (sorted_inserts es hm)) (sorted_inserts es hm) fun k => ?_
  rw [mapGet_inserts, mapGet_inserts]
  cases lastEntry es k <;> rfl

theorem applyFields_ok {fs : List Field} {ap : Json → Ty → Option Val → Made (Option Val)} {w : Nat → Val}
    (hfs : ∀ (i : Nat) f, fs[i]? = some f → fieldByName fs f.name = some (i, f)) :
    ∀ {kvs : List (Str × Json)} {vs : List Val}, vs.length = fs.length → (kvs.map Prod.fst).Nodup →
    (∀ kv ∈ kvs, ∃ f ∈ fs, f.name = kv.1) →
    (∀ (i : Nat) f j, fs[i]? = some f → member kvs f.name = some j → ap j f.ty vs[i]? = .ok (some (w i))) →
    ∃ vs', applyFields fs ap kvs vs = .ok vs' ∧ vs'.length = fs.length ∧
      ∀ (i : Nat) f, fs[i]? = some f → vs'[i]? = if (member kvs f.name).isSome then some (w i) else vs[i]?
  | [], vs, hl, _, _, _ => ⟨vs, rfl, hl, fun i f _ => by simp [member]⟩
  | (k, j) :: kvs, vs, hl, hn, hk, h => by
    obtain ⟨f, hf, rfl⟩ := hk (k, j) (by simp)
    obtain ⟨i, hi⟩ := List.getElem?_of_mem hf
    simp only [List.map_cons, List.nodup_cons] at hn
    have hil : i < vs.length := by
      rw [hl]
      exact (List.getElem?_eq_some_iff.1 hi).1
    have hother : ∀ (i' : Nat) f', fs[i']? = some f' → i' ≠ i → f'.name ≠ f.name := by
      intro i' f' hi' hne he
      have h1 := hfs i' f' hi'
      rw [he, hfs i f hi] at h1
      cases h1
      exact hne rfl
    have hrest : ∀ (i' : Nat) f', fs[i']? = some f' → (member kvs f'.name).isSome → i' ≠ i := by
      intro i' f' hi' hm he
      subst he
      rw [hi] at hi'
      cases hi'
      apply hn.1
      have : ∀ {l : List (Str × Json)} {k : Str}, (member l k).isSome → k ∈ l.map Prod.fst := by
        intro l k
        induction l with
        | nil => intro h; simp [member] at h
        | cons x l ih =>
          intro h
          simp only [member] at h
          split at h
          · rename_i e; simp [e]
          · simp only [List.map_cons, List.mem_cons]; exact .inr (ih h)
      exact this hm
    have hap : onField (ap j f.ty) vs[i]? = .ok (w i) := by
      have h' := h i f j hi (by simp [member])
      rw [List.getElem?_eq_getElem hil] at h' ⊢
      unfold onField
      rw [ok_bind (show present (some vs[i]) = .ok vs[i] from rfl), ok_bind h']
      rfl
    obtain ⟨vs', e1, e2, e3⟩ := applyFields_ok (ap := ap) (w := w) hfs (kvs := kvs) (vs := vs.set i (w i)) (by simpa using hl) hn.2
      (fun kv hkv => hk kv (by simp [hkv]))
      (fun i' f' j' hi' hm => by
        have hne := hrest i' f' hi' (by rw [hm]; rfl)
        rw [List.getElem?_set_ne (Ne.symm hne)]
        exact h i' f' j' hi' (by simp [member, (hother i' f' hi' hne).symm, hm]))
    refine ⟨vs', ?_, e2, fun i' f' hi' => ?_⟩
    · unfold applyFields
      rw [hfs i f hi]
      dsimp only
      rw [ok_bind hap]
      exact e1
    · rw [e3 i' f' hi']
      by_cases hne : i' = i
      · subst hne
        rw [hi] at hi'
        cases hi'
        simp only [member, if_true, Option.isSome_some]
        split
        · rfl
        · simp [hil]
      · rw [List.getElem?_set_ne (Ne.symm hne)]
        simp [member, (hother i' f' hi' hne).symm]

/-- What a constructor leaves in each field. -/
theorem newFields_get {mk : Ty → Made Val} {ap : Json → Ty → Option Val → Made (Option Val)} :
    ∀ {fs : List Field} {vs : List Val}, newFields mk ap fs = .ok vs → vs.length = fs.length ∧
    ∀ (i : Nat) f, fs[i]? = some f → ∃ v0 v, vs[i]? = some v ∧ freshField mk f = .ok v0 ∧ fieldDefault ap f v0 = .ok v
  | [], vs, h => by cases h; exact ⟨rfl, by simp⟩
  | f :: fs, vs, h => by
    unfold newFields at h
    obtain ⟨v0, e0, h⟩ := bind_ok h
    obtain ⟨v, e1, h⟩ := bind_ok h
    obtain ⟨vs', e2, h⟩ := bind_ok h
    cases h
    obtain ⟨l, g⟩ := newFields_get e2
    refine ⟨by simp [l], fun i f' hi => ?_⟩
    cases i with
    | zero => cases hi; exact ⟨v0, v, rfl, e0, e1⟩
    | succ i => simpa using g i f' (by simpa using hi)

/-! Enums. -/

/-- The constants of an enum have different names. -/
def EnumsCompile (nm : Namer) (env : Env) : Prop :=
  ∀ q d syms e, env.find q = some d → d.kind = .enum syms e →
    (syms.map (symbolGoName nm (nm.publicName d.name.str))).Nodup

theorem filter_one {l : List Nat} {p : Nat → Bool} {i : Nat} (hn : l.Nodup) (hi : i ∈ l) (hp : p i = true)
    (hu : ∀ i' ∈ l, p i' = true → i' = i) : l.filter p = [i] := by
  induction l with
  | nil => simp at hi
  | cons a l ih =>
    rw [List.nodup_cons] at hn
    by_cases ha : a = i
    · subst ha
      rw [List.filter_cons_of_pos hp]
      congr 1
      rw [List.filter_eq_nil_iff]
      intro i' hi' hp'
      have := hu i' (by simp [hi']) hp'
      subst this
      exact hn.1 hi'
    · have hia : i ∈ l := by
        rcases List.mem_cons.1 hi with h | h
        · exact absurd h.symm ha
        · exact h
      rw [List.filter_cons_of_neg (fun hpa => ha (hu a (by simp) hpa))]
      exact ih hn.2 hia (fun i' hi' => hu i' (by simp [hi']))

theorem symbolConst_ok {nm : Namer} {type : Str} {syms : List Str} {s : Str} {i : Nat}
    (hn : (syms.map (symbolGoName nm type)).Nodup) (hi : syms[i]? = some s) :
    symbolConst nm type syms s = some (BitVec.ofNat 32 i) := by
  have hil := (List.getElem?_eq_some_iff.1 hi).1
  unfold symbolConst
  rw [filter_one (i := i) List.nodup_range (List.mem_range.2 hil) (by simp [hi])
    (fun i' hi' hp => by
      rw [List.mem_range] at hi'
      simp only [decide_eq_true_eq] at hp
      have h1 : (syms.map (symbolGoName nm type))[i']? = (syms.map (symbolGoName nm type))[i]? := by
        rw [List.getElem?_map, List.getElem?_map, hp, hi]
        rfl
      exact (List.getElem?_inj (by simpa using hi') hn).1 h1)]

/-! The theorem. -/

section
variable {nm : Namer} {env : Env}

/-- Every record's constructor returns. -/
def ConstructorsReturn (nm : Namer) (env : Env) : Prop :=
  ∀ q d fs, env.find q = some d → d.kind = .record fs → ∃ n v, construct nm env n (.ref q) = .ok v

/-- What the lvalue has to hold. -/
def Ready (nm : Namer) (env : Env) (t : Ty) (v : Val) (cur : Option Val) : Prop :=
  match t with
  | .null => cur = some .null
  | .map _ => cur = some (.map []) ∨ cur = some v
  | .ref q => ∀ d, env.find q = some d → match d.kind with
    | .record _ => cur = some v ∨ ∃ m c, construct nm env m (.ref q) = .ok c ∧ cur = some c
    | .fixed n => ∃ bs, cur = some (.fixed bs) ∧ bs.length = n.toNat
    | .enum _ _ => True
  | _ => True

theorem ready_construct {m : Nat} {t : Ty} {c v : Val} (h : construct nm env m t = .ok c) : Ready nm env t v (some c) := by
  cases m with
  | zero => simp [construct] at h
  | succ m =>
    cases t with
    | null => simp [construct, zeroVal] at h; subst h; rfl
    | map it => simp [construct] at h; subst h; exact .inl rfl
    | ref q =>
      intro d hd
      cases hk : d.kind with
      | record fs => exact .inr ⟨_, _, h, rfl⟩
      | enum s e => trivial
      | fixed n =>
        simp only [construct, hd, hk] at h
        cases h
        exact ⟨List.replicate n.toNat 0, by simp only [zeroVal, hd, hk], by simp⟩
    | _ => trivial

theorem construct_ok (hC : ConstructorsReturn nm env) {j : Json} {t : Ty} {v : Val} {lim : Bool} (h : DefaultMeans env lim j t v) :
    ∃ N c, ∀ n ≥ N, construct nm env n t = .ok c := by
  have hs : ∀ {c : Val}, construct nm env 1 t = .ok c → ∃ N c, ∀ n ≥ N, construct nm env n t = .ok c :=
    fun h => ⟨1, _, fun n hn => construct_mono h hn⟩
  cases h with
  | record hq hk => 
    obtain ⟨n, c, h⟩ := hC _ _ _ hq hk
    exact ⟨n, c, fun m hm => construct_mono h hm⟩
  | @enum q _ _ _ _ _ hq hk => exact hs (c := zeroVal env (.ref q)) (by simp only [construct, hq, hk])
  | @fixed q _ _ _ hq hk => exact hs (c := zeroVal env (.ref q)) (by simp only [construct, hq, hk])
  | _ => exact hs rfl

theorem bound_all : ∀ (k : Nat) (P : Nat → Nat → Prop), (∀ i < k, ∃ N, ∀ n ≥ N, P i n) →
    ∃ N, ∀ n ≥ N, ∀ i < k, P i n
  | 0, _, _ => ⟨0, fun _ _ _ h => by omega⟩
  | k + 1, P, h => by
    obtain ⟨N1, h1⟩ := bound_all k P (fun i hi => h i (by omega))
    obtain ⟨N2, h2⟩ := h k (by omega)
    refine ⟨max N1 N2, fun n hn i hi => ?_⟩
    by_cases e : i = k
    · subst e; exact h2 n (by omega)
    · exact h1 n (by omega) i (by omega)

theorem fixed_stays {n : Nat} {j : Json} {q : QName} {d : Def} {k : Int} {bs : List Byte} {v : Val}
    (hq : env.find q = some d) (hk : d.kind = .fixed k)
    (h : applyDefault nm env n j (.ref q) true (some (.fixed bs)) = .ok (some v)) :
    ∃ bs', v = .fixed bs' ∧ bs'.length = bs.length := by
  cases n with
  | zero => simp [applyDefault] at h
  | succ n =>
    simp only [applyDefault, hq, hk] at h
    cases j with
    | str s =>
      cases h
      refine ⟨_, rfl, ?_⟩
      unfold copyOver
      rw [List.length_append, List.length_take, List.length_drop]
      omega
    | _ => cases h

theorem null_stays {n : Nat} {j : Json} {c v : Val} (h : applyDefault nm env n j .null true (some c) = .ok (some v)) : v = c := by
  cases n with
  | zero => simp [applyDefault] at h
  | succ n => simp only [applyDefault] at h; cases h; rfl

theorem number_pos {j : Json} {a : Int} {d : Nat} (h : j.number = some (a, d)) : 0 < d := by
  cases j <;> simp only [Json.number] at h <;> try cases h
  · exact Nat.one_pos
  · split at h
    · cases h; exact Nat.two_pow_pos _
    · cases h

theorem ready_self {j : Json} {t : Ty} {v : Val} {lim : Bool} (h : DefaultMeans env lim j t v) : Ready nm env t v (some v) := by
  cases h with
  | null => rfl
  | map => exact .inr rfl
  | enum hq hk => intro d hd; rw [hq] at hd; cases hd; rw [hk]; trivial
  | fixed hq hk h1 h2 =>
    intro d hd; rw [hq] at hd; cases hd; rw [hk]
    exact ⟨_, rfl, by simp; omega⟩
  | record hq hk => intro d hd; rw [hq] at hd; cases hd; rw [hk]; exact .inl rfl
  | _ => trivial

theorem intDefault_ok {w : Nat} {j : Json} {a : Int} {d : Nat} {c : Int × Nat} {v : BitVec w} (h : j.number = some (a, d))
    (hl : literal a d = c) (hc : constInt w c.1 c.2 = some v) : intDefault w j = .ok v := by
  unfold intDefault
  rw [h]
  dsimp only
  rw [hl, hc]
  rfl

theorem floatDefault_ok {F : Fmt} {j : Json} {a : Int} {d : Nat} {c : Int × Nat} {v : BitVec F.width} (h : j.number = some (a, d))
    (hl : literal a d = c) (hc : constFloat F c.1 c.2 = some v) : floatDefault F j = .ok v := by
  unfold floatDefault
  rw [h]
  dsimp only
  rw [hl, hc]
  rfl

theorem apply_means (hE : EnumsCompile nm env) (hF : FieldsApart env) (hC : ConstructorsReturn nm env)
    {j : Json} {t : Ty} {v : Val} (h : DefaultMeans env true j t v) :
    ∃ N, ∀ n ≥ N, ∀ addr cur, (addr = true ∧ Ready nm env t v cur ∨ InMap env t) →
      applyDefault nm env n j t addr cur = .ok (some v) := by
  have one : ∀ {P : Nat → Prop}, (∀ n, P (n + 1)) → ∃ N, ∀ n ≥ N, P n := by
    intro P h
    refine ⟨1, fun n hn => ?_⟩
    obtain ⟨m, rfl⟩ : ∃ m, n = m + 1 := ⟨n - 1, by omega⟩
    exact h m
  have up : ∀ {P : Nat → Prop}, (∃ N, ∀ n ≥ N, P (n + 1)) → ∃ N, ∀ n ≥ N, P n := by
    rintro P ⟨N, h⟩
    refine ⟨N + 1, fun n hn => ?_⟩
    obtain ⟨m, rfl⟩ : ∃ m, n = m + 1 := ⟨n - 1, by omega⟩
    exact h m (by omega)
  induction h with
  | null =>
    refine one fun n addr cur hr => ?_
    rcases hr with ⟨_, hr⟩ | hr
    · simp only [applyDefault]; rw [show cur = some .null from hr]
    · cases hr
  | bool => exact one fun n addr cur _ => by simp only [applyDefault]
  | @int z h1 h2 =>
    refine one fun n addr cur _ => ?_
    simp only [applyDefault]
    rw [ok_map (intDefault_ok (j := .num z) rfl (literal_int (z := z) (by omega)) (constInt_int (w := 32) h1 h2))]
  | @long z h1 h2 h3 =>
    refine one fun n addr cur _ => ?_
    simp only [applyDefault]
    rw [ok_map (intDefault_ok (j := .num z) rfl (literal_int (z := z) (h3 rfl)) (constInt_int (w := 64) h1 h2))]
  | @float j a d b h1 h2 h3 =>
    refine one fun n addr cur _ => ?_
    obtain ⟨b', g1, g2⟩ := h3 rfl
    have hd : 0 < d := number_pos h1
    have e := (literal_double (a := a) hd).trans (Near.const (by decide) (by decide) hd g1)
    have hp := literal_pos (a := a) hd
    obtain ⟨c, hc⟩ : ∃ c, literal a d = c := ⟨_, rfl⟩
    rw [hc] at e hp
    have e2 := Near.const (by decide) (by decide) hp (g2 _ _ hp (constFloat_near double (by decide) (by decide) hp e))
    simp only [applyDefault]
    exact ok_map (α := BitVec 32) (floatDefault_ok h1 hc e2)
  | @double j a d b h1 h2 =>
    refine one fun n addr cur _ => ?_
    have hd : 0 < d := number_pos h1
    have e := (literal_double (a := a) hd).trans (Near.const (by decide) (by decide) hd h2)
    obtain ⟨c, hc⟩ : ∃ c, literal a d = c := ⟨_, rfl⟩
    rw [hc] at e
    simp only [applyDefault]
    exact ok_map (α := BitVec 64) (floatDefault_ok h1 hc e)
  | bytes h => exact one fun n addr cur _ => by simp only [applyDefault]; rfl
  | string => exact one fun n addr cur _ => by simp only [applyDefault]
  | enum hq hk hi =>
    refine one fun n addr cur _ => ?_
    simp only [applyDefault, hq, hk, symbolConst_ok (hE _ _ _ _ hq hk) hi]
    rfl
  | @fixed q d k s hq hk h1 h2 h3 =>
    refine one fun n addr cur hr => ?_
    rcases hr with ⟨rfl, hr⟩ | hr
    · have := hr d hq
      rw [hk] at this
      obtain ⟨bs, rfl, hl⟩ := this
      simp only [applyDefault, hq, hk]
      rw [utf8_ascii (h3 rfl)]
      congr 3
      unfold copyOver
      have e1 : (s.map fun c => BitVec.ofNat 8 c.toNat).length = bs.length := by simp; omega
      rw [← e1, List.take_length, e1, List.drop_length, List.append_nil]
    · cases hr with
      | enum hq' hk' => rw [hq] at hq'; cases hq'; rw [hk] at hk'; cases hk'
  | @array js t vs hl hm ih =>
    refine up ?_
    obtain ⟨N, hN⟩ := bound_all js.length (fun i n => ∀ j v, js[i]? = some j → vs[i]? = some v → ∀ addr cur,
        (addr = true ∧ Ready nm env t v cur ∨ InMap env t) → applyDefault nm env n j t addr cur = .ok (some v)) (by
      intro i hi
      obtain ⟨j, hj⟩ : ∃ j, js[i]? = some j := ⟨_, List.getElem?_eq_getElem hi⟩
      obtain ⟨v, hv⟩ : ∃ v, vs[i]? = some v := ⟨_, List.getElem?_eq_getElem (by omega)⟩
      obtain ⟨N, hN⟩ := ih i j v hj hv
      refine ⟨N, fun n hn j' v' hj' hv' => ?_⟩
      rw [hj] at hj'; rw [hv] at hv'
      cases hj'; cases hv'
      exact hN n hn)
    by_cases he : js = []
    · subst he
      refine ⟨0, fun n _ addr cur _ => ?_⟩
      have : vs = [] := by cases vs with
        | nil => rfl
        | cons => simp at hl
      subst this
      simp only [applyDefault]
      rfl
    · obtain ⟨j0, js', rfl⟩ := List.exists_cons_of_ne_nil he
      obtain ⟨v0, vs', rfl⟩ : ∃ v vs', vs = v :: vs' := by
        cases vs with
        | nil => simp at hl
        | cons v vs' => exact ⟨v, vs', rfl⟩
      obtain ⟨M, c, hc⟩ := construct_ok hC (hm 0 j0 v0 rfl rfl)
      refine ⟨max N M, fun n hn addr cur _ => ?_⟩
      simp only [applyDefault]
      rw [ok_map (applyItems_ok (fun _ => hc n (by omega)) hl (fun i j v hj hv =>
        hN n (by omega) i (List.getElem?_eq_some_iff.1 hj).1 j v hj hv true (some c) (.inl ⟨rfl, ready_construct (hc n (by omega))⟩)))]
  | @map kvs t vs hn hl hm hi ih =>
    refine up ?_
    obtain ⟨N, hN⟩ := bound_all kvs.length (fun i n => ∀ kv v, kvs[i]? = some kv → vs[i]? = some v → ∀ addr cur,
        (addr = true ∧ Ready nm env t v cur ∨ InMap env t) → applyDefault nm env n kv.2 t addr cur = .ok (some v)) (by
      intro i hi
      obtain ⟨j, hj⟩ : ∃ j, kvs[i]? = some j := ⟨_, List.getElem?_eq_getElem hi⟩
      obtain ⟨v, hv⟩ : ∃ v, vs[i]? = some v := ⟨_, List.getElem?_eq_getElem (by omega)⟩
      obtain ⟨N, hN⟩ := ih i j v hj hv
      refine ⟨N, fun n hn j' v' hj' hv' => ?_⟩
      rw [hj] at hj'; rw [hv] at hv'
      cases hj'; cases hv'
      exact hN n hn)
    refine ⟨N, fun n hn addr cur hr => ?_⟩
    have key : ∀ m, applyEntries (fun j => applyDefault nm env n j t false) kvs m =
        .ok (mapInserts m ((kvs.map fun kv => utf8 kv.1).zip vs)) := fun m =>
      applyEntries_ok hl (fun i kv v c hk hv =>
        hN n hn i (List.getElem?_eq_some_iff.1 hk).1 kv v hk hv false c (.inr (hi rfl)))
    rcases hr with ⟨_, hr⟩ | hr
    · rcases hr with rfl | rfl
      · simp only [applyDefault, ok_map (key [])]
        rfl
      · simp only [applyDefault, ok_map (key _), mapOf]
        rw [mapInserts_again _ _ List.Pairwise.nil]
    · cases hr
  | @unionNull ts h =>
    refine one fun n addr cur _ => ?_
    cases ts with
    | nil => cases h
    | cons t ts => cases h; simp only [applyDefault, Ty.isNull, if_true]
  | @union j ts t v h1 h2 hm ih =>
    refine up ?_
    obtain ⟨N, hN⟩ := ih
    obtain ⟨M, c, hc⟩ := construct_ok hC hm
    refine ⟨max N M, fun n hn addr cur hr => ?_⟩
    cases ts with
    | nil => cases h1
    | cons t' ts =>
      cases h1
      have hnull : t.isNull = false := by cases t <;> first | rfl | exact absurd rfl h2
      have hcond : ¬(addr = false ∧ (t :: ts).any Ty.isNull = false) := by
        rintro ⟨rfl, ha⟩
        rcases hr with ⟨hr, _⟩ | hr
        · cases hr
        · cases hr with
          | union hmem he =>
            subst he
            rw [List.any_eq_false] at ha
            exact ha _ hmem rfl
      simp only [applyDefault]
      rw [hnull, if_neg (by simp), if_neg hcond, ok_bind (hc n (by omega)),
        ok_bind (hN n (by omega) true (some c) (.inl ⟨rfl, ready_construct (hc n (by omega))⟩))]
      rfl
  | @record kvs q d fs vs hq hk hnd hkeys hl hsome hm hcond ih =>
    refine up ?_
    obtain ⟨N, hN⟩ := bound_all fs.length (fun i n => ∀ f v j, fs[i]? = some f → vs[i]? = some v → f.given kvs = some j →
        ∀ addr cur, (addr = true ∧ Ready nm env f.ty v cur ∨ InMap env f.ty) →
          applyDefault nm env n j f.ty addr cur = .ok (some v)) (by
      intro i hi
      obtain ⟨f, hf⟩ : ∃ f, fs[i]? = some f := ⟨_, List.getElem?_eq_getElem hi⟩
      obtain ⟨v, hv⟩ : ∃ v, vs[i]? = some v := ⟨_, List.getElem?_eq_getElem (by omega)⟩
      obtain ⟨j, hj⟩ := Option.isSome_iff_exists.1 (hsome f (List.mem_of_getElem? hf))
      obtain ⟨N, hN⟩ := ih i f v j hf hv hj
      refine ⟨N, fun n hn f' v' j' hf' hv' hj' => ?_⟩
      rw [hf] at hf'; rw [hv] at hv'
      cases hf'; cases hv'
      rw [hj] at hj'
      cases hj'
      exact hN n hn)
    refine ⟨N, fun n hn addr cur hr => ?_⟩
    rcases hr with ⟨rfl, hr⟩ | hr
    rotate_left
    · cases hr with
      | enum hq' hk' => rw [hq] at hq'; cases hq'; rw [hk] at hk'; cases hk'
    have hfs : ∀ (i : Nat) f, fs[i]? = some f → fieldByName fs f.name = some (i, f) := fun i f hi => hF.self hq hk hi
    -- the slots before, and what they become
    have main : ∀ vs0 : List Val, vs0.length = fs.length →
        (∀ (i : Nat) f v, fs[i]? = some f → vs[i]? = some v → (member kvs f.name).isSome → Ready nm env f.ty v vs0[i]?) →
        (∀ (i : Nat) f, fs[i]? = some f → member kvs f.name = none → vs0[i]? = vs[i]?) →
        applyDefault nm env (n + 1) (.obj kvs) (.ref q) true (some (.record vs0)) = .ok (some (.record vs)) := by
      intro vs0 hl0 hready hkeep
      have hw : ∀ i < fs.length, ∃ v, vs[i]? = some v := fun i hi => ⟨_, List.getElem?_eq_getElem (by omega)⟩
      obtain ⟨vs', e1, e2, e3⟩ := applyFields_ok (fs := fs) (ap := fun j t => applyDefault nm env n j t true)
        (w := fun i => vs.getD i .null) hfs hl0 hnd hkeys (by
          intro i f j hi hj
          have hil := (List.getElem?_eq_some_iff.1 hi).1
          obtain ⟨v, hv⟩ := hw i hil
          have hg : f.given kvs = some j := by unfold Field.given; rw [hj]
          have : vs.getD i .null = v := by simp [List.getD, hv]
          rw [this]
          exact hN n hn i hil f v j hi hv hg true _ (.inl ⟨rfl, hready i f v hi hv (by rw [hj]; rfl)⟩))
      have : vs' = vs := by
        apply List.ext_getElem?
        intro i
        by_cases hil : i < fs.length
        · obtain ⟨f, hf⟩ : ∃ f, fs[i]? = some f := ⟨_, List.getElem?_eq_getElem hil⟩
          obtain ⟨v, hv⟩ := hw i hil
          rw [e3 i f hf]
          cases hm : member kvs f.name with
          | none => simp only [Option.isSome_none, Bool.false_eq_true, if_false]; exact hkeep i f hf hm
          | some j => simp [hv]
        · rw [List.getElem?_eq_none (by omega), List.getElem?_eq_none (by omega)]
      subst this
      simp only [applyDefault, hq, hk, ok_map e1]
    have hr := hr d hq
    rw [hk] at hr
    rcases hr with rfl | ⟨m, c, hc, rfl⟩
    · refine main vs hl.symm (fun i f v hf hv _ => ?_) (fun _ _ _ _ => rfl)
      -- the value itself is ready
      rw [hv]
      obtain ⟨j, hj⟩ := Option.isSome_iff_exists.1 (hsome f (List.mem_of_getElem? hf))
      have := hm i f v j hf hv hj
      exact ready_self this
    · -- the constructed record
      cases m with
      | zero => simp [construct] at hc
      | succ m =>
        simp only [construct, hq, hk] at hc
        obtain ⟨vs0, hnew, rfl⟩ := map_ok hc
        obtain ⟨l0, g⟩ := newFields_get hnew
        refine main vs0 l0 (fun i f v hf hv hgiven => ?_) (fun i f hf hnone => ?_)
        · obtain ⟨v0, v1, e1, e2, e3⟩ := g i f hf
          rw [e1]
          have hr0 : Ready nm env f.ty v (some v0) := by
            unfold freshField at e2
            split at e2
            · rename_i hnf
              have : ∃ ts, f.ty = .union ts := by
                cases hty : f.ty <;> rw [hty] at hnf <;> first | exact ⟨_, rfl⟩ | cases hnf
              obtain ⟨ts, hts⟩ := this
              rw [hts]; trivial
            · exact ready_construct e2
          unfold fieldDefault at e3
          cases hd : f.dflt with
          | none => rw [hd] at e3; cases e3; exact hr0
          | some j0 =>
            rw [hd] at e3
            obtain ⟨o, e3, e4⟩ := bind_ok e3
            have := present_ok e4
            subst this
            have hnm := hcond rfl f (List.mem_of_getElem? hf) hgiven (by rw [hd]; rfl)
            generalize f.ty = ty at *
            cases ty with
            | null =>
              have := null_stays e3
              subst this
              exact hr0
            | map t => exact absurd .map hnm
            | ref q' =>
              intro d' hd'
              cases hk' : d'.kind with
              | enum _ _ => trivial
              | record _ => exact absurd (.record hd' hk') hnm
              | fixed k =>
                have h0 := hr0 d' hd'
                rw [hk'] at h0
                obtain ⟨bs, hb, hbl⟩ := h0
                cases hb
                obtain ⟨bs', rfl, hbl'⟩ := fixed_stays hd' hk' e3
                exact ⟨bs', rfl, by omega⟩
            | _ => trivial
        · obtain ⟨v0, v1, e1, e2, e3⟩ := g i f hf
          have hil := (List.getElem?_eq_some_iff.1 hf).1
          obtain ⟨v, hv⟩ : ∃ v, vs[i]? = some v := ⟨_, List.getElem?_eq_getElem (by omega)⟩
          obtain ⟨j, hj⟩ := Option.isSome_iff_exists.1 (hsome f (List.mem_of_getElem? hf))
          have hdf : f.dflt = some j := by unfold Field.given at hj; rw [hnone] at hj; exact hj
          have hr0 : Ready nm env f.ty v (some v0) := by
            unfold freshField at e2
            split at e2
            · rename_i hnf
              have : ∃ ts, f.ty = .union ts := by
                cases hty : f.ty <;> rw [hty] at hnf <;> first | exact ⟨_, rfl⟩ | cases hnf
              obtain ⟨ts, hts⟩ := this
              rw [hts]; trivial
            · exact ready_construct e2
          unfold fieldDefault at e3
          rw [hdf] at e3
          obtain ⟨o, e3, e4⟩ := bind_ok e3
          have := present_ok e4
          subst this
          have h1 := apply_mono e3 (Nat.le_max_left m n)
          have h2 := hN (max m n) (by omega) i hil f v j hf hv hj true (some v0) (.inl ⟨rfl, hr0⟩)
          rw [h2] at h1
          cases h1
          rw [e1, hv]

end

end Verif
