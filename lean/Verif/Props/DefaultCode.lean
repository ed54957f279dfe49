import Verif.Gen.DefaultTextProof
import Verif.Gen.DefaultCodeBack
import Verif.Props.DefaultsEx
/-
Property C101: the code that sets defaults. What stands in the constructor `NewX()` and in the method `SetDefault` of a
generated record are Go statements, and run as Go statements they do what C69 and C99 say of constructors and of
`SetDefault`.

Spec/GoDefault has the statements, their tokens, and what they do. Spec/GoNumber has how Go reads a number.
-/
namespace Verif.Props
open Verif Spec Spec.Go Spec.GoD

variable {P : Spec.GoD.Package} {print : Char → Bool} {ctor set : QName → Str}

/-- What the generator has written for the records of a package. -/
structure Emitted (P : Spec.GoD.Package) (print : Char → Bool) (ctor set : QName → Str) : Prop where
  /-- the text of the constructors -/
  ctors : ∀ q d fs doc, P.n.find q = some d → d.kind = .record fs doc → ∃ k, constructorText P.nm P.n print k (d.goName P.nm) fs = .ok (ctor q)
  /-- the text of `SetDefault` -/
  sets : ∀ q d fs doc, P.n.find q = some d → d.kind = .record fs doc → ∃ k, setDefaultText P.nm P.n print k (d.goName P.nm) fs = .ok (set q)

/-- The names of the package are names that Avro allows, and those of the fields of a record are different in Go. -/
structure Legal (P : Spec.GoD.Package) : Prop where
  defs : ∀ q d, P.n.find q = some d → Dotted d.name.str
  fields : LegalFields P.n
  apart : ∀ q d fs doc, P.n.find q = some d → d.kind = .record fs doc → (fs.map fun f => fieldGoName P.nm f.name).Nodup
  symbols : ∀ q d syms doc v, P.n.find q = some d → d.kind = .enum syms doc v → ∀ s ∈ syms, LegalName s

theorem newSts_of_text (hp : Printing print) (hL : Legal P) {q : QName} {d : PDef} {fs : List PField} {doc : Str} (hq : P.n.find q = some d)
    (hk : d.kind = .record fs doc) {k : Nat} {s : Str} (h : constructorText P.nm P.n print k (d.goName P.nm) fs = .ok s) :
    ∃ L, newSts P.nm P.n k fs = .ok L ∧ (Readable L → tokens s = some (constructorToks (d.goName P.nm) L)) := by
  have := constructor_tokens P.nm hp hL.fields k (name := d.goName P.nm) (publicName_exported P.nm (hL.defs q d hq)) (hL.fields q d fs doc hq hk)
  rw [h] at this
  cases e : newSts P.nm P.n k fs with
  | error e' => rw [e] at this; exact this.elim
  | ok L => rw [e] at this; exact ⟨L, rfl, this⟩

theorem cases_of_text (hp : Printing print) (hL : Legal P) {q : QName} {d : PDef} {fs : List PField} {doc : Str} (hq : P.n.find q = some d)
    (hk : d.kind = .record fs doc) {k : Nat} {s : Str} (h : setDefaultText P.nm P.n print k (d.goName P.nm) fs = .ok s) :
    ∃ cs, setCases P.nm P.n k 0 fs = .ok cs ∧ ((∀ c ∈ cs, Readable c.2) → tokens s = some (setDefaultToks (d.goName P.nm) cs)) := by
  have := setDefault_tokens P.nm hp hL.fields k (name := d.goName P.nm) (publicName_exported P.nm (hL.defs q d hq)) (hL.fields q d fs doc hq hk)
  rw [h] at this
  cases e : setCases P.nm P.n k 0 fs with
  | error e' => rw [e] at this; exact this.elim
  | ok cs => rw [e] at this; exact ⟨cs, rfl, this⟩

/-- The statements that the texts have. -/
theorem emitted_generated (hp : Printing print) (hL : Legal P) (hE : Emitted P print ctor set) :
    ∃ bodies, Generated P bodies ∧ ∀ q d fs doc, P.n.find q = some d → d.kind = .record fs doc →
      Readable (bodies q) → tokens (ctor q) = some (constructorToks (d.goName P.nm) (bodies q)) := by
  have h : ∀ q, ∃ L : Sts, ∀ d fs doc, P.n.find q = some d → d.kind = .record fs doc →
      (∃ k, newSts P.nm P.n k fs = .ok L) ∧ (Readable L → tokens (ctor q) = some (constructorToks (d.goName P.nm) L)) := by
    intro q
    by_cases h : ∃ d fs doc, P.n.find q = some d ∧ d.kind = .record fs doc
    · obtain ⟨d, fs, doc, hq, hk⟩ := h
      obtain ⟨k, hc⟩ := hE.ctors q d fs doc hq hk
      obtain ⟨L, h1, h2⟩ := newSts_of_text hp hL hq hk hc
      refine ⟨L, fun d' fs' doc' hq' hk' => ?_⟩
      rw [hq] at hq'; cases hq'
      rw [hk] at hk'; cases hk'
      exact ⟨⟨k, h1⟩, h2⟩
    · exact ⟨[], fun d fs doc hq hk => (h ⟨d, fs, doc, hq, hk⟩).elim⟩
  refine ⟨fun q => (h q).choose, ⟨hL.apart, fun q d fs doc hq hk => ((h q).choose_spec d fs doc hq hk).1, fun q d fs doc f q' hq hk hf ht => ?_⟩,
    fun q d fs doc hq hk => ((h q).choose_spec d fs doc hq hk).2⟩
  have := (hL.fields q d fs doc hq hk f hf).2.2
  rw [ht] at this
  obtain ⟨d', h', -⟩ := this
  exact ⟨d', h'⟩

/-! ### Code that runs can be read -/

theorem change1_calls {s : Seg} {f : Change} {t : PTy} {a : Bool} {c : Option Val} {v : Val} (h : change1 P s f t a c = .ok v) :
    ∃ t' a' c' v', f t' a' c' = .ok v' := by
  cases s with
  | field name =>
    simp only [change1, changeField] at h
    repeat' (first | cases h; done | split at h)
    all_goals (rename_i e; first | exact ⟨_, _, _, _, e⟩ | cases h)
  | item i =>
    simp only [change1, changeItem] at h
    repeat' (first | cases h; done | split at h)
    all_goals (rename_i e; first | exact ⟨_, _, _, _, e⟩ | cases h)
  | entry k =>
    simp only [change1, changeEntry] at h
    repeat' (first | cases h; done | split at h)
    all_goals (rename_i e; first | exact ⟨_, _, _, _, e⟩ | cases h)

theorem change_calls {f : Change} : ∀ {l : List Seg} {t : PTy} {a : Bool} {c : Option Val} {v : Val}, change P l f t a c = .ok v →
    ∃ t' a' c' v', f t' a' c' = .ok v'
  | [], _, _, _, _, h => ⟨_, _, _, _, h⟩
  | _ :: _, _, _, _, _, h => by
    obtain ⟨_, _, _, _, h⟩ := change1_calls h
    exact change_calls h

theorem constant_symbol {syms : List Str} {type name : Str} {b : BitVec 32} (h : constant P syms type name = some b) :
    ∃ s ∈ syms, symbolGoName P.nm type s = name := by
  unfold constant at h
  split at h
  · rename_i i hi
    have : i ∈ [i] := List.mem_cons_self ..
    rw [← hi, List.mem_filter] at this
    have h1 := of_decide_eq_true this.2
    cases hs : syms[i]? with
    | none => rw [hs] at h1; cases h1
    | some s =>
      rw [hs] at h1
      exact ⟨s, List.mem_of_getElem? hs, Option.some.inj h1⟩
  · cases h

theorem run_readable (hL : Legal P) {new : PTy → Made Val} : ∀ {L : Sts} {t : PTy} {a : Bool} {c r : Option Val}, run P new L t a c = .ok r → Readable L
  | [], _, _, _, _, _ => fun s hs => by cases hs
  | s :: L, t, a, c, r, h => by
    rw [run] at h
    split at h
    · cases h
    · rename_i v hv
      intro x hx
      rcases List.mem_cons.1 hx with rfl | hx
      · cases x with
        | copy l bs => trivial
        | assign l e =>
          cases e with
          | const name =>
            obtain ⟨t', a', c', v', hv⟩ := change_calls hv
            cases t' with
            | ref q =>
              simp only [value] at hv
              cases hq : P.n.find q with
              | none => rw [hq] at hv; cases hv
              | some d =>
                rw [hq] at hv
                dsimp only at hv
                cases hk : d.kind with
                | enum syms doc w =>
                  rw [hk] at hv
                  dsimp only at hv
                  cases hc : constant P syms (d.goName P.nm) name with
                  | none => rw [hc] at hv; cases hv
                  | some b =>
                    obtain ⟨s, hs, rfl⟩ := constant_symbol hc
                    exact symbol_word P.nm (publicName_exported P.nm (hL.defs q d hq)) (hL.symbols q d syms doc w hq hk s hs)
                | record fs doc => rw [hk] at hv; cases hv
                | fixed z => rw [hk] at hv; cases hv
            | _ => cases hv
          | _ => trivial
      · exact run_readable hL h x hx

theorem makes_readable (hL : Legal P) {bodies : QName → Sts} {q : QName} {d : PDef} {fs : List PField} {doc : Str} (hq : P.n.find q = some d)
    (hk : d.kind = .record fs doc) {m : Nat} {v : Val} (h : makes P bodies m (.ref q) = .ok v) : Readable (bodies q) := by
  cases m with
  | zero => cases h
  | succ m =>
    simp only [makes, hq, hk] at h
    obtain ⟨o, h1, -⟩ := bind_ok h
    exact run_readable hL h1

/-! ### Cases -/

theorem mapM_dflt {k g : Nat} {f : PField} {L M : Sts} (h1 : dfltSts P.nm P.n k f = .ok L) (h2 : dfltSts P.nm P.n g f = .ok M) : L = M := by
  unfold dfltSts at h1 h2
  cases hd : f.dflt with
  | none => rw [hd] at h1 h2; cases h1; cases h2; rfl
  | some j =>
    rw [hd] at h1 h2
    have e1 := defaultSts_mono (Nat.le_max_left k g) h1
    have e2 := defaultSts_mono (Nat.le_max_right k g) h2
    rw [e1] at e2; cases e2; rfl

/-- The case of a field. -/
theorem setCases_find {k : Nat} : ∀ {fs : List PField} {i : Nat} {cs : List (Nat × Sts)}, setCases P.nm P.n k i fs = .ok cs → ∀ l,
    (∃ f j L, fs[l]? = some f ∧ f.dflt = some j ∧ defaultSts P.nm P.n k j f.ty = .ok L ∧
      cs.find? (fun c => decide (c.1 = i + l)) = some (i + l, L.map (.under (.field (fieldGoName P.nm f.name))))) ∨
    ((∀ f, fs[l]? = some f → f.dflt = none) ∧ cs.find? (fun c => decide (c.1 = i + l)) = none)
  | [], i, cs, h, l => by cases h; exact .inr ⟨fun f hf => (by simp at hf), rfl⟩
  | f :: fs, i, cs, h, l => by
    rw [setCases] at h
    obtain ⟨L, h1, h⟩ := bind_ok h
    obtain ⟨r, h2, h⟩ := bind_ok h
    cases h
    have below : ∀ c ∈ r, i + 1 ≤ c.1 := cases_from h2
    cases l with
    | zero =>
      cases hd : f.dflt with
      | none =>
        refine .inr ⟨fun g hg => by cases hg; exact hd, ?_⟩
        rw [if_neg (by simp)]
        exact List.find?_eq_none.2 fun c hc => by
          have := below c hc
          simp; omega
      | some j =>
        rw [dfltSts, hd] at h1
        refine .inl ⟨f, j, L, rfl, hd, h1, ?_⟩
        rw [if_pos (by simp), List.find?_cons_of_pos (by simp)]
        rfl
    | succ l =>
      have e : i + (l + 1) = i + 1 + l := by omega
      rw [e]
      have e2 : (if f.dflt.isSome then (i, L.map (.under (.field (fieldGoName P.nm f.name)))) :: r else r).find? (fun c => decide (c.1 = i + 1 + l)) =
          r.find? (fun c => decide (c.1 = i + 1 + l)) := by
        split
        · rw [List.find?_cons_of_neg (by simp; omega)]
        · rfl
      rw [e2]
      exact setCases_find h2 l
where
  cases_from {k : Nat} : ∀ {fs : List PField} {i : Nat} {cs : List (Nat × Sts)}, setCases P.nm P.n k i fs = .ok cs → ∀ c ∈ cs, i ≤ c.1
  | [], i, cs, h, c, hc => by cases h; cases hc
  | f :: fs, i, cs, h, c, hc => by
    rw [setCases] at h
    obtain ⟨L, h1, h⟩ := bind_ok h
    obtain ⟨r, h2, h⟩ := bind_ok h
    cases h
    split at hc
    · rcases List.mem_cons.1 hc with rfl | hc
      · exact Nat.le_refl _
      · have := cases_from h2 c hc; omega
    · have := cases_from h2 c hc; omega

theorem readable_map {L : Sts} (s : Seg) (h : Readable L) : Readable (L.map (.under s)) := by
  intro x hx
  obtain ⟨y, hy, rfl⟩ := List.mem_map.1 hx
  have := h y hy
  cases y with
  | assign l e => cases e <;> exact this
  | copy l bs => exact this

/-- The cases have the statements of the constructor. -/
theorem cases_readable {k g : Nat} : ∀ {fs : List PField} {i : Nat} {cs : List (Nat × Sts)} {L : Sts}, newSts P.nm P.n k fs = .ok L →
    setCases P.nm P.n g i fs = .ok cs → Readable L → ∀ c ∈ cs, Readable c.2
  | [], i, cs, L, _, h, _, c, hc => by cases h; cases hc
  | f :: fs, i, cs, L, hN, h, hR, c, hc => by
    rw [newSts] at hN
    obtain ⟨l, n1, hN⟩ := bind_ok hN
    obtain ⟨r, n2, hN⟩ := bind_ok hN
    cases hN
    rw [freshSts] at n1
    obtain ⟨l', n3, n1⟩ := bind_ok n1
    cases n1
    rw [setCases] at h
    obtain ⟨M, h1, h⟩ := bind_ok h
    obtain ⟨r', h2, h⟩ := bind_ok h
    cases h
    obtain ⟨r1, r2⟩ := readable_append hR
    split at hc
    · rcases List.mem_cons.1 hc with rfl | hc
      · rw [mapM_dflt h1 n3]
        exact readable_map _ (readable_append (readable_under r1)).2
      · exact cases_readable n2 h2 r2 c hc
    · exact cases_readable n2 h2 r2 c hc

/-- What `SetDefault` does. -/
theorem setDefault_iff {bodies : QName → Sts} (hG : Generated P bodies) {q : QName} {d : PDef} {fs : List PField} {doc : Str} (hq : P.n.find q = some d)
    (hk : d.kind = .record fs doc) {k : Nat} {cs : List (Nat × Sts)} (hc : setCases P.nm P.n k 0 fs = .ok cs) {vs : List Val}
    (hw : WholeFields P.n.env vs (fs.map PField.erase)) (i : Nat) (r : Option Val) :
    (∃ m, setDefault P (makes P bodies m) cs i (.ref q) (.record vs) = .ok r) ↔
      ∃ vs', SetsDefault P.nm P.n.env (fs.map PField.erase) vs i vs' ∧ r = some (.record vs') := by
  have h := setCases_find hc i
  rw [Nat.zero_add] at h
  unfold SetsDefault setDefaultOf
  rcases h with ⟨f, j, L, h1, h2, h3, h4⟩ | ⟨h1, h2⟩
  · have e1 : (fs.map PField.erase)[i]? = some f.erase := by rw [List.getElem?_map, h1]; rfl
    have e2 : f.erase.dflt = some j := h2
    obtain ⟨v, hv, hwv⟩ := wholeFields_get hw e1
    unfold setDefault
    rw [h4, e1]
    dsimp only
    rw [e2]
    dsimp only
    rw [hv]
    constructor
    · rintro ⟨m, hm⟩
      rw [run_field hq hk (hG.names _ _ _ _ hq hk) h1 L vs v hv] at hm
      obtain ⟨x, hx, rfl⟩ := map_ok hm
      obtain ⟨o, ho, hx⟩ := bind_ok hx
      have := present_ok hx
      subst this
      obtain ⟨n, hn⟩ := (default_iff hG (a := true) (WholeAt.some hwv) (some x)).1 ⟨L, ⟨k, h3⟩, m, ho⟩
      refine ⟨vs.set i x, ⟨n, ?_⟩, rfl⟩
      show ((applyDefault P.nm P.n.env n j f.ty.erase true (some v) >>= present) >>= _) = _
      rw [hn]; rfl
    · rintro ⟨vs', ⟨n, hn⟩, rfl⟩
      obtain ⟨x, hx, hn⟩ := bind_ok hn
      cases hn
      have hx : (applyDefault P.nm P.n.env n j f.ty.erase true (some v) >>= present) = .ok x := hx
      obtain ⟨o, ho, hx⟩ := bind_ok hx
      have := present_ok hx
      subst this
      obtain ⟨L', ⟨g, hg⟩, m, hm⟩ := (default_iff hG (a := true) (WholeAt.some hwv) (some x)).2 ⟨n, ho⟩
      have e3 := defaultSts_mono (Nat.le_max_left k g) h3
      have e4 := defaultSts_mono (Nat.le_max_right k g) hg
      rw [e3] at e4; cases e4
      refine ⟨m, ?_⟩
      rw [run_field hq hk (hG.names _ _ _ _ hq hk) h1 L vs v hv, hm]
      rfl
  · unfold setDefault
    rw [h2]
    constructor
    · rintro ⟨m, hm⟩; cases hm
    · rintro ⟨vs', ⟨n, hn⟩, -⟩
      rw [List.getElem?_map] at hn
      cases hf : fs[i]? with
      | none => rw [hf] at hn; cases hn
      | some f =>
        rw [hf] at hn
        have e : f.erase.dflt = none := h1 f hf
        simp only [Option.map_some, e] at hn
        cases hn

/-! ### The property -/

/-- C101: the texts that the generator has written for the constructors and `SetDefault` methods of a package are those of Go statements, and these do
what C69 says of constructors and of `SetDefault`. A constructor that returns has the tokens of its statements; it returns what `New` says, and nothing
else. `SetDefault(i)`, on a record with all its fields, makes of it what `SetsDefault` says, and nothing else. -/
theorem default_code (hp : Printing print) (hL : Legal P) (hE : Emitted P print ctor set) :
    ∃ (bodies : QName → List Spec.GoD.St) (cases : QName → List (Nat × List Spec.GoD.St)),
      ∀ q d fs doc, P.n.find q = some d → d.kind = .record fs doc →
        (∀ vs, New P.nm P.n.env q vs → tokens (ctor q) = some (constructorToks (d.goName P.nm) (bodies q)) ∧
          tokens (set q) = some (setDefaultToks (d.goName P.nm) (cases q))) ∧
        (∀ v, (∃ m, makes P bodies m (.ref q) = .ok v) ↔ ∃ vs, v = .record vs ∧ New P.nm P.n.env q vs) ∧
        ∀ vs i r, WholeFields P.n.env vs (fs.map PField.erase) →
          ((∃ m, setDefault P (makes P bodies m) (cases q) i (.ref q) (.record vs) = .ok r) ↔
            ∃ vs', SetsDefault P.nm P.n.env (fs.map PField.erase) vs i vs' ∧ r = some (.record vs')) := by
  obtain ⟨bodies, hG, hT⟩ := emitted_generated hp hL hE
  have h : ∀ q, ∃ cs : List (Nat × Sts), ∀ d fs doc, P.n.find q = some d → d.kind = .record fs doc →
      (∃ k, setCases P.nm P.n k 0 fs = .ok cs) ∧ ((∀ c ∈ cs, Readable c.2) → tokens (set q) = some (setDefaultToks (d.goName P.nm) cs)) := by
    intro q
    by_cases h : ∃ d fs doc, P.n.find q = some d ∧ d.kind = .record fs doc
    · obtain ⟨d, fs, doc, hq, hk⟩ := h
      obtain ⟨k, hc⟩ := hE.sets q d fs doc hq hk
      obtain ⟨cs, h1, h2⟩ := cases_of_text hp hL hq hk hc
      refine ⟨cs, fun d' fs' doc' hq' hk' => ?_⟩
      rw [hq] at hq'; cases hq'
      rw [hk] at hk'; cases hk'
      exact ⟨⟨k, h1⟩, h2⟩
    · exact ⟨[], fun d fs doc hq hk => (h ⟨d, fs, doc, hq, hk⟩).elim⟩
  refine ⟨bodies, fun q => (h q).choose, fun q d fs doc hq hk => ?_⟩
  obtain ⟨⟨k, hk1⟩, hk2⟩ := (h q).choose_spec d fs doc hq hk
  have hm := makes_iff hG hq hk
  refine ⟨fun vs hN => ?_, fun v => ⟨fun hv => ?_, ?_⟩, fun vs i r hw => setDefault_iff hG hq hk hk1 hw i r⟩
  · obtain ⟨m, hv⟩ := (hm (.record vs)).2 hN
    have hR := makes_readable hL hq hk hv
    obtain ⟨g, hg⟩ := hG.bodies q d fs doc hq hk
    exact ⟨hT q d fs doc hq hk hR, hk2 (cases_readable hg hk1 hR)⟩
  · obtain ⟨n, hn⟩ := (hm v).1 hv
    obtain ⟨vs, _, rfl, -⟩ := new_record (find_erase hq) (kind_record hk) hn
    exact ⟨vs, rfl, n, hn⟩
  · rintro ⟨vs, rfl, hN⟩
    exact (hm _).2 hN

/-- Numbers: what is printed for a number that a default gives is in Go a constant, and is the number that C69 takes it for. -/
theorem default_number {j : Json} {a : Int} {d : Nat} (h : j.number = some (a, d)) :
    ∃ ts x, tokens (numberText a d ++ "\n".toList) = some (ts ++ [.sign ';']) ∧ readNumber ts = some x ∧ Same x (literal a d) := by
  obtain ⟨x, h1, h2⟩ := numberToks_read h
  refine ⟨numberToks a d, x, ?_, h1, h2⟩
  have := writes_tokens (writes_phrase (phrase_numberText a d) (c := "\n".toList) (by decide +kernel) (writes_last (us := [.sign ';']) (by decide +kernel)))
  simpa [cat] using this

/-- C101 with C69, in part: a record made by the code of its constructor has in every field with a default the value that the default stands for.
Missing: the defaults without the conditions of `DefaultMeans env true`. -/
theorem code_default_partial (hp : Printing print) (hL : Legal P) (hE : Emitted P print ctor set) (hS : EnumsCompile P.nm P.n.env) (hF : FieldsApart P.n.env)
    (hC : ConstructorsReturn P.nm P.n.env) {q : QName} {d : PDef} {fs : List PField} {doc : Str} (hq : P.n.find q = some d) (hk : d.kind = .record fs doc) :
    ∃ bodies m vs, tokens (ctor q) = some (constructorToks (d.goName P.nm) (bodies q)) ∧ makes P bodies m (.ref q) = .ok (.record vs) ∧
      vs.length = fs.length ∧ ∀ (i : Nat) f j v, fs[i]? = some f → f.dflt = some j → DefaultMeans P.n.env true j f.ty.erase v → vs[i]? = some v := by
  obtain ⟨bodies, cases, h⟩ := default_code hp hL hE
  obtain ⟨h1, h2, -⟩ := h q d fs doc hq hk
  obtain ⟨vs, h3, h4, h5⟩ := new_default_partial hS hF hC (find_erase hq) (kind_record hk)
  obtain ⟨m, hm⟩ := (h2 (.record vs)).2 ⟨vs, rfl, h3⟩
  refine ⟨bodies, m, vs, (h1 vs h3).1, hm, by rw [h4, List.length_map], fun i f j v hf hd hm => ?_⟩
  exact h5 i f.erase j v (by rw [List.getElem?_map, hf]; rfl) hd hm

end Verif.Props
