import Verif.Gen.DefaultCodeRun
import Verif.Gen.DefaultWhole
/-
The statements of Gen/DefaultCode do what Gen/Default says. First: what Gen/Default gives, the statements give.
-/
namespace Verif
open Spec Spec.Go Spec.GoD

/-- A package that the generator has written: the constructors have the bodies that it prints, fields of a record have different names, and fields have types. -/
structure Generated (P : Spec.GoD.Package) (bodies : QName → Sts) : Prop where
  names : ∀ q d fs doc, P.n.find q = some d → d.kind = .record fs doc → (fs.map fun f => fieldGoName P.nm f.name).Nodup
  bodies : ∀ q d fs doc, P.n.find q = some d → d.kind = .record fs doc → ∃ k, newSts P.nm P.n k fs = .ok (bodies q)
  types : ∀ q d fs doc f q', P.n.find q = some d → d.kind = .record fs doc → f ∈ fs → f.ty = .ref q' → ∃ d', P.n.find q' = some d'

variable {P : Spec.GoD.Package} {bodies : QName → Sts}

/-! ### Definitions -/

theorem find_erase {q : QName} {d : PDef} (h : P.n.find q = some d) : P.n.env.find q = some d.erase := by rw [env_find, h]; rfl

theorem kind_record {d : PDef} {fs : List PField} {doc : Str} (h : d.kind = .record fs doc) : d.erase.kind = .record (fs.map PField.erase) := by
  simp [PDef.erase, h]
theorem kind_enum {d : PDef} {s : List Str} {e : Str} {v : Str} (h : d.kind = .enum s e v) : d.erase.kind = .enum s v := by
  simp [PDef.erase, h]
theorem kind_fixed {d : PDef} {k : Int} (h : d.kind = .fixed k) : d.erase.kind = .fixed k := by
  simp [PDef.erase, h]

theorem fieldByName_erase {k : Str} : ∀ (fs : List PField) (i : Nat),
    (fieldByNameFrom i (fs.map PField.erase) k = none ∧ pFieldByName fs k = none) ∨
    ∃ l f, fs[l]? = some f ∧ fieldByNameFrom i (fs.map PField.erase) k = some (i + l, f.erase) ∧ pFieldByName fs k = some f
  | [], i => .inl ⟨rfl, rfl⟩
  | f :: fs, i => by
    rw [List.map_cons, fieldByNameFrom]
    by_cases h : f.name = k ∨ k ∈ f.aliases
    · exact .inr ⟨0, f, rfl, by rw [if_pos (show f.erase.name = k ∨ k ∈ f.erase.aliases from h)]; rfl,
        by rw [pFieldByName, List.find?_cons_of_pos (by simpa using h)]⟩
    · rw [if_neg (show ¬ (f.erase.name = k ∨ k ∈ f.erase.aliases) from h)]
      have e : pFieldByName (f :: fs) k = pFieldByName fs k := by
        rw [pFieldByName, List.find?_cons_of_neg (by simpa using h)]; rfl
      rw [e]
      rcases fieldByName_erase fs (i + 1) with h | ⟨l, f', h1, h2, h3⟩
      · exact .inl h
      · exact .inr ⟨l + 1, f', by rw [List.getElem?_cons_succ]; exact h1, by rw [h2]; congr 2; omega, h3⟩

theorem zero_eq (t : PTy) (ht : ∀ q, t = .ref q → ∃ d, P.n.find q = some d ∧ ∀ fs doc, d.kind ≠ .record fs doc) : zeroVal P.n.env t.erase = zero P t := by
  cases t with
  | prim p d => cases p <;> rfl
  | ref q =>
    obtain ⟨d, h1, h2⟩ := ht q rfl
    simp only [PTy.erase, zeroVal, zero, h1, find_erase h1]
    cases hk : d.kind with
    | record fs doc => exact (h2 _ _ hk).elim
    | enum s e v => rw [kind_enum hk]
    | fixed k => rw [kind_fixed hk]
  | _ => rfl

/-! ### Parts -/

theorem Runs.item {it : PTy} {d : Json} {a : Bool} {i : Nat} {L : Sts} {vs : List Val} {v x : Val} (hv : vs[i]? = some v)
    (h : Runs P bodies L it true (some v) (some x)) :
    Runs P bodies (L.map (.under (.item i))) (.array it d) a (some (.array vs)) (some (.array (vs.set i x))) := by
  obtain ⟨m, h⟩ := h
  exact ⟨m, by rw [run_item it d a i L vs v hv, ok_bind h]; rfl⟩

theorem Runs.field {q : QName} {d : PDef} {fs : List PField} {doc : Str} (hG : Generated P bodies) (hq : P.n.find q = some d)
    (hk : d.kind = .record fs doc) {i : Nat} {f : PField} (hf : fs[i]? = some f) {L : Sts} {vs : List Val} {v x : Val} (hv : vs[i]? = some v)
    (h : Runs P bodies L f.ty true (some v) (some x)) :
    Runs P bodies (L.map (.under (.field (fieldGoName P.nm f.name)))) (.ref q) true (some (.record vs)) (some (.record (vs.set i x))) := by
  obtain ⟨m, h⟩ := h
  exact ⟨m, by rw [run_field hq hk (hG.names _ _ _ _ hq hk) hf L vs v hv, ok_bind h]; rfl⟩

theorem Runs.member {name : Str} {u : PTy} {ts : List PTy} {d : List Json} {a : Bool} {L : Sts} (hL : L ≠ []) {x : Option Val} {v : Val}
    (hc : ¬ (a = false ∧ (u :: ts).any nullTy = false)) (h : Runs P bodies L u true (some (x.getD (zero P u))) (some v)) :
    Runs P bodies (L.map (.under (.field (u.goName P.nm P.n)))) (.union name (u :: ts) d) a (some (.union 0 x)) (some (.union 0 (some v))) := by
  obtain ⟨m, h⟩ := h
  obtain ⟨s, L, rfl⟩ : ∃ s L', L = s :: L' := by
    cases L with
    | nil => exact (hL rfl).elim
    | cons s L => exact ⟨s, L, rfl⟩
  exact ⟨m, by rw [run_member, if_neg hc, ok_bind h]; rfl⟩

theorem Runs.entry {it : PTy} {d : Json} {a : Bool} {k : List Byte} {L : Sts} {m : List (List Byte × Val)} {o : Option Val} (hm : Sorted m)
    (h : Runs P bodies L it false (mapGet m k) o) :
    Runs P bodies (L.map (.under (.entry k))) (.map it d) a (some (.map m)) (some (.map (put k m o))) := by
  obtain ⟨m', h⟩ := h
  exact ⟨m', by rw [run_entry it d a k L m hm, h]; rfl⟩

theorem Runs.none {L : Sts} {t : PTy} {a : Bool} (h : Runs P bodies L t a none none) : L = [] := by
  obtain ⟨m, h⟩ := h
  exact run_none h

/-! ### Loops -/

/-- What the next calls do. -/
structure Below (P : Spec.GoD.Package) (bodies : QName → Sts) (k : Nat) : Prop where
  make : ∀ t v, construct P.nm P.n.env k (PTy.erase t) = .ok v → Runs P bodies (ctorSts P.nm P.n t) t true (some (zero P t)) (some v)
  set : ∀ j t a c r, applyDefault P.nm P.n.env k j (PTy.erase t) a c = .ok r → WholeAt P.n.env c t.erase →
    ∃ L, defaultSts P.nm P.n k j t = .ok L ∧ Runs P bodies L t a c r

variable {k : Nat}

theorem items_run (hB : Below P bodies k) (it : PTy) (d : Json) (a : Bool) : ∀ (js : List Json) (i : Nat) (vs : List Val),
    applyItems (construct P.nm P.n.env k it.erase) (fun j => applyDefault P.nm P.n.env k j it.erase true) js = .ok vs →
    ∃ L, itemSts (ctorSts P.nm P.n it) (fun j => defaultSts P.nm P.n k j it) i js = .ok L ∧ ∀ done : List Val, done.length = i →
      Runs P bodies L (.array it d) a (some (.array (done ++ List.replicate js.length (zero P it)))) (some (.array (done ++ vs)))
  | [], i, vs, h => by cases h; exact ⟨[], rfl, fun done _ => .nil⟩
  | j :: js, i, vs, h => by
    obtain ⟨v0, h0, h⟩ := bind_ok h
    obtain ⟨v, h1, h⟩ := bind_ok h
    obtain ⟨vs', h2, h⟩ := bind_ok h
    cases h
    obtain ⟨o, h1, h3⟩ := bind_ok h1
    have := present_ok h3
    subst this
    have r0 := hB.make _ _ h0
    obtain ⟨l, e1, r1⟩ := hB.set _ _ _ _ _ h1 (.some ((default_whole P.nm P.n.env k).1 _ _ h0))
    obtain ⟨r, e2, r2⟩ := items_run hB it d a js (i + 1) vs' h2
    refine ⟨(ctorSts P.nm P.n it ++ l).map (.under (.item i)) ++ r, ?_, ?_⟩
    · rw [itemSts, ok_bind e1, ok_bind e2]; rfl
    · intro done hd
      refine .append (.item (i := i) (v := zero P it) ?_ (r0.append r1)) ?_
      · rw [List.getElem?_append_right (by omega), hd, Nat.sub_self]; rfl
      · have := r2 (done ++ [v]) (by simp [hd])
        rw [List.set_append_right _ _ (by omega), hd, Nat.sub_self]
        rw [List.append_assoc, List.append_assoc] at this
        exact this

theorem entries_run (hB : Below P bodies k) (it : PTy) (d : Json) (a : Bool) : ∀ (kvs : List (Str × Json)) (m m' : List (List Byte × Val)),
    applyEntries (fun j => applyDefault P.nm P.n.env k j it.erase false) kvs m = .ok m' → Sorted m → WholeEntries P.n.env m it.erase →
    ∃ L, entrySts (fun j => defaultSts P.nm P.n k j it) kvs = .ok L ∧ Runs P bodies L (.map it d) a (some (.map m)) (some (.map m'))
  | [], m, m', h, _, _ => by cases h; exact ⟨[], rfl, .nil⟩
  | (key, j) :: kvs, m, m', h, hs, hw => by
    obtain ⟨o, h1, h2⟩ := bind_ok h
    have hc : WholeAt P.n.env (mapGet m (utf8 key)) it.erase := fun v hv => wholeEntries_get hw hv
    obtain ⟨l, e1, r1⟩ := hB.set _ _ _ _ _ h1 hc
    have ho := (default_whole P.nm P.n.env k).2 _ _ _ _ _ h1 hc
    have hs' : Sorted (put (utf8 key) m o) := by
      cases o with
      | none => exact hs
      | some v => exact sorted_insert _ _ hs
    have hw' : WholeEntries P.n.env (put (utf8 key) m o) it.erase := by
      cases o with
      | none => exact hw
      | some v => exact wholeEntries_insert hw (ho v rfl)
    obtain ⟨r, e2, r2⟩ := entries_run hB it d a kvs _ m' (by cases o <;> exact h2) hs' hw'
    refine ⟨l.map (.under (.entry (utf8 key))) ++ r, ?_, (Runs.entry hs r1).append r2⟩
    rw [entrySts, ok_bind e1, ok_bind e2]; rfl

theorem nilMap_run (hB : Below P bodies k) (it : PTy) : ∀ (kvs : List (Str × Json)),
    applyNilMap (fun j => applyDefault P.nm P.n.env k j it.erase false none) kvs = .ok () →
    entrySts (fun j => defaultSts P.nm P.n k j it) kvs = .ok []
  | [], _ => rfl
  | (key, j) :: kvs, h => by
    obtain ⟨o, h1, h2⟩ := bind_ok h
    cases o with
    | some v => cases h2
    | none =>
      obtain ⟨l, e1, r1⟩ := hB.set _ _ _ _ _ h1 .none
      have := r1.none
      subst this
      rw [entrySts, ok_bind e1, ok_bind (nilMap_run hB it kvs h2)]; rfl

theorem entryFields_run (hB : Below P bodies k) (fs : List PField) : ∀ (kvs : List (Str × Json)),
    applyEntryFields (fs.map PField.erase) (fun j t => applyDefault P.nm P.n.env k j t false none) kvs = .ok () →
    fieldSts P.nm fs (fun j t => defaultSts P.nm P.n k j t) kvs = .ok []
  | [], _ => rfl
  | (key, j) :: kvs, h => by
    simp only [applyEntryFields] at h
    rcases fieldByName_erase (k := key) fs 0 with ⟨hf, -⟩ | ⟨i, f, hi, hf, hp⟩
    · rw [show fieldByName (fs.map PField.erase) key = none from hf] at h; cases h
    · rw [show fieldByName (fs.map PField.erase) key = some (0 + i, f.erase) from hf] at h
      dsimp only at h
      obtain ⟨o, h1, h2⟩ := bind_ok h
      cases o with
      | some v => cases h2
      | none =>
        obtain ⟨l, e1, r1⟩ := hB.set j f.ty false none none h1 .none
        have := r1.none
        subst this
        simp only [fieldSts, hp]
        rw [ok_bind e1, ok_bind (entryFields_run hB fs kvs h2)]; rfl

theorem fields_run (hG : Generated P bodies) (hB : Below P bodies k) {q : QName} {d : PDef} {fs : List PField} {doc : Str}
    (hq : P.n.find q = some d) (hk : d.kind = .record fs doc) : ∀ (kvs : List (Str × Json)) (vs vs' : List Val),
    applyFields (fs.map PField.erase) (fun j t => applyDefault P.nm P.n.env k j t true) kvs vs = .ok vs' →
    WholeFields P.n.env vs (fs.map PField.erase) →
    ∃ L, fieldSts P.nm fs (fun j t => defaultSts P.nm P.n k j t) kvs = .ok L ∧
      Runs P bodies L (.ref q) true (some (.record vs)) (some (.record vs'))
  | [], vs, vs', h, _ => by cases h; exact ⟨[], rfl, .nil⟩
  | (key, j) :: kvs, vs, vs', h, hw => by
    simp only [applyFields] at h
    rcases fieldByName_erase (k := key) fs 0 with ⟨hf, -⟩ | ⟨i, f, hi, hf, hp⟩
    · rw [show fieldByName (fs.map PField.erase) key = none from hf] at h; cases h
    · rw [show fieldByName (fs.map PField.erase) key = some (0 + i, f.erase) from hf, Nat.zero_add] at h
      dsimp only at h
      obtain ⟨v, h1, h2⟩ := bind_ok h
      obtain ⟨v0, e0, h1⟩ := bind_ok h1
      obtain ⟨o, h1, h3⟩ := bind_ok h1
      have := present_ok h3
      subst this
      have e0 := present_ok e0
      have hi' : (fs.map PField.erase)[i]? = some f.erase := by rw [List.getElem?_map, hi]; rfl
      obtain ⟨w, w1, w2⟩ := wholeFields_get hw hi'
      rw [e0] at w1; cases w1
      obtain ⟨l, e1, r1⟩ := hB.set j f.ty true _ _ h1 (.some w2)
      have hx := (default_whole P.nm P.n.env k).2 _ _ _ _ _ h1 (.some w2) v rfl
      obtain ⟨r, e2, r2⟩ := fields_run hG hB hq hk kvs _ vs' h2 (wholeFields_set hw hi' hx)
      refine ⟨l.map (.under (.field (fieldGoName P.nm f.name))) ++ r, ?_, (Runs.field hG hq hk hi e0 r1).append r2⟩
      simp only [fieldSts, hp]
      rw [ok_bind e1, ok_bind e2]; rfl

theorem nullFirst_zero {t : PTy} (h : t.erase.nullFirst = true) : zero P t = .nil := by
  cases t with
  | prim p d => cases p <;> cases h
  | ref q => cases h
  | _ => rfl

theorem new_run (hG : Generated P bodies) (hB : Below P bodies k) {q : QName} {d : PDef} {fs : List PField} {doc : Str}
    (hq : P.n.find q = some d) (hk : d.kind = .record fs doc) {g : Nat} : ∀ (rest pre : List PField) (done vs : List Val) (L : Sts),
    fs = pre ++ rest → done.length = pre.length →
    newFields (construct P.nm P.n.env k) (fun j t => applyDefault P.nm P.n.env k j t true) (rest.map PField.erase) = .ok vs →
    newSts P.nm P.n g rest = .ok L →
    Runs P bodies L (.ref q) true (some (.record (done ++ rest.map fun f => zero P f.ty))) (some (.record (done ++ vs)))
  | [], pre, done, vs, L, _, _, h, hL => by cases h; cases hL; exact .nil
  | f :: rest, pre, done, vs, L, hf, hd, h, hL => by
    obtain ⟨v0, h0, h⟩ := bind_ok h
    obtain ⟨v, h1, h⟩ := bind_ok h
    obtain ⟨vs', h2, h⟩ := bind_ok h
    cases h
    obtain ⟨l, e1, hL⟩ := bind_ok hL
    obtain ⟨r, e2, hL⟩ := bind_ok hL
    cases hL
    have hw0 : Whole P.n.env v0 f.ty.erase := by
      unfold freshField at h0
      split at h0
      · cases h0; trivial
      · exact (default_whole P.nm P.n.env k).1 _ _ h0
    have r0 : Runs P bodies (if f.ty.erase.nullFirst then [] else ctorSts P.nm P.n f.ty) f.ty true (some (zero P f.ty)) (some v0) := by
      unfold freshField at h0
      split
      · rename_i hn
        rw [if_pos (show f.erase.ty.nullFirst = true from hn)] at h0
        cases h0
        rw [nullFirst_zero hn]; exact .nil
      · rename_i hn
        rw [if_neg (show ¬ f.erase.ty.nullFirst = true from hn)] at h0
        exact hB.make _ _ h0
    have r1 : ∃ b, dfltSts P.nm P.n g f = .ok b ∧
        l = ((if f.ty.erase.nullFirst then [] else ctorSts P.nm P.n f.ty) ++ b).map (.under (.field (fieldGoName P.nm f.name))) ∧
        Runs P bodies b f.ty true (some v0) (some v) := by
      unfold freshSts at e1
      obtain ⟨b, e3, e4⟩ := bind_ok e1
      cases e4
      refine ⟨b, e3, rfl, ?_⟩
      unfold fieldDefault at h1
      rw [show f.erase.dflt = f.dflt from rfl] at h1
      unfold dfltSts at e3
      cases hdf : f.dflt with
      | none => rw [hdf] at h1 e3; cases h1; cases e3; exact .nil
      | some j =>
        rw [hdf] at h1 e3
        obtain ⟨o, h3, h4⟩ := bind_ok h1
        have := present_ok h4
        subst this
        obtain ⟨b', e5, r⟩ := hB.set j f.ty true _ _ h3 (.some hw0)
        have e6 := defaultSts_mono (Nat.le_max_left k g) e5
        have e7 := defaultSts_mono (Nat.le_max_right k g) e3
        rw [e6] at e7; cases e7
        exact r
    obtain ⟨b, -, rfl, r1⟩ := r1
    have hi : fs[done.length]? = some f := by rw [hf, List.getElem?_append_right (by omega), hd, Nat.sub_self]; rfl
    refine .append (.field hG hq hk hi (v := zero P f.ty) ?_ (r0.append r1)) ?_
    · rw [List.getElem?_append_right (Nat.le_refl _), Nat.sub_self]; rfl
    · have := new_run hG hB hq hk rest (pre ++ [f]) (done ++ [v]) vs' r (by rw [hf]; simp) (by simp [hd]) h2 e2
      rw [List.set_append_right _ _ (Nat.le_refl _), Nat.sub_self]
      rw [List.append_assoc, List.append_assoc] at this
      exact this

/-! ### All depths -/

theorem int_run (x : Int × Nat) : (orBuild (asInt x)).map some = (orBuild (constInt 32 x.1 x.2)).map fun v => some (.int v) := by
  unfold asInt; generalize constInt 32 x.1 x.2 = o; cases o <;> rfl
theorem long_run (x : Int × Nat) : (orBuild (asLong x)).map some = (orBuild (constInt 64 x.1 x.2)).map fun v => some (.long v) := by
  unfold asLong; generalize constInt 64 x.1 x.2 = o; cases o <;> rfl
theorem float_run (x : Int × Nat) : (orBuild (asFloat x)).map some = (orBuild (constFloat single x.1 x.2)).map fun v => some (.float v) := by
  unfold asFloat; generalize constFloat single x.1 x.2 = o; cases o <;> rfl
theorem double_run (x : Int × Nat) : (orBuild (asDouble x)).map some = (orBuild (constFloat double x.1 x.2)).map fun v => some (.double v) := by
  unfold asDouble; generalize constFloat double x.1 x.2 = o; cases o <;> rfl

/-- A number as a value of a type. -/
def asPrim : Prim → Int × Nat → Option Val
  | .int => asInt
  | .long => asLong
  | .float => asFloat
  | .double => asDouble
  | _ => fun _ => none

theorem asInt_same {x y : Int × Nat} (h : Same x y) : asInt x = asInt y := by unfold asInt; rw [constInt_same 32 h]
theorem asLong_same {x y : Int × Nat} (h : Same x y) : asLong x = asLong y := by unfold asLong; rw [constInt_same 64 h]
theorem asFloat_same {x y : Int × Nat} (h : Same x y) : asFloat x = asFloat y := by unfold asFloat; rw [constFloat_same single h]
theorem asDouble_same {x y : Int × Nat} (h : Same x y) : asDouble x = asDouble y := by unfold asDouble; rw [constFloat_same double h]

theorem asPrim_same {x y : Int × Nat} (h : Same x y) (p : Prim) : asPrim p x = asPrim p y := by
  cases p with
  | int => exact asInt_same h
  | long => exact asLong_same h
  | float => exact asFloat_same h
  | double => exact asDouble_same h
  | _ => rfl

theorem number_value {new : PTy → Made Val} {ts : List Tok} {y : Int × Nat} (hx : ∃ x, readNumber ts = some x ∧ Same x y) (p : Prim) (d : Json) (b : Bool) (c : Option Val) :
    run P new [.assign [] (.num ts)] (.prim p d) b c = (orBuild (asPrim p y)).map some := by
  obtain ⟨x, hx, hs⟩ := hx
  rw [← asPrim_same hs p]
  have h : value P new (.num ts) (.prim p d) b c = orBuild (asPrim p x) := by
    cases p with
    | int => show orBuild ((readNumber ts).bind asInt) = orBuild (asInt x); rw [hx, Option.bind_some]
    | long => show orBuild ((readNumber ts).bind asLong) = orBuild (asLong x); rw [hx, Option.bind_some]
    | float => show orBuild ((readNumber ts).bind asFloat) = orBuild (asFloat x); rw [hx, Option.bind_some]
    | double => show orBuild ((readNumber ts).bind asDouble) = orBuild (asDouble x); rw [hx, Option.bind_some]
    | _ => rfl
  simp only [run, step, change, h]
  generalize asPrim p x = o
  cases o <;> rfl

theorem ctor_run {new : PTy → Made Val} {t : PTy} {e : Spec.GoT.Ex} (h : t.ctor P.nm P.n = some e) (a : Bool) (c : Option Val) :
    run P new (ctorSts P.nm P.n t) t a c = (match t with
      | .array _ _ => (.ok (.array []) : Made Val)
      | .map _ _ => .ok (.map [])
      | t => new t).map some := by
  simp only [ctorSts, h, run, step, change]
  cases t with
  | prim p d => cases h
  | array it d => cases h; simp only [value, if_true]; rfl
  | map it d => cases h; simp only [value, if_true]; rfl
  | union name ts d =>
    cases h
    simp only [value, if_true]
    cases new (.union name ts d) <;> rfl
  | ref q =>
    cases hq : P.n.find q with
    | none => simp only [PTy.ctor, hq] at h; cases h
    | some d =>
      simp only [PTy.ctor, hq] at h
      cases hk : d.kind with
      | record fs doc =>
        rw [hk] at h; cases h
        simp only [value, PTy.goName, hq, if_true]
        cases new (.ref q) <;> rfl
      | enum s e v => rw [hk] at h; cases h
      | fixed k => rw [hk] at h; cases h

theorem ctor_none {t : PTy} (h : t.ctor P.nm P.n = none) : ctorSts P.nm P.n t = [] := by simp only [ctorSts, h]

theorem ctor_record {q : QName} {d : PDef} {fs : List PField} {doc : Str} (hq : P.n.find q = some d) (hk : d.kind = .record fs doc) :
    (PTy.ref q).ctor P.nm P.n = some (.call (newName (d.goName P.nm))) := by simp only [PTy.ctor, hq, hk]

/-- The statements for the first member of a union are not none. -/
theorem member_sts {u : PTy} (hu : nullTy u = false) {g : Nat} {j : Json} {l : Sts} (h : defaultSts P.nm P.n g j u = .ok l) :
    ctorSts P.nm P.n u ++ l ≠ [] := by
  intro e
  obtain ⟨e1, rfl⟩ := List.append_eq_nil_iff.1 e
  cases g with
  | zero => cases h
  | succ g =>
    cases u with
    | prim p d =>
      cases p with
      | null => cases hu
      | bool => cases j <;> cases h
      | bytes => cases j <;> cases h
      | string => cases j <;> cases h
      | _ => simp only [defaultSts] at h; cases hj : j.number <;> rw [hj] at h <;> cases h
    | array it d => cases e1
    | map it d => cases e1
    | union name ts d => cases e1
    | ref q =>
      simp only [defaultSts] at h
      cases hq : P.n.find q with
      | none => rw [hq] at h; cases h
      | some d =>
        rw [hq] at h
        dsimp only at h
        cases hk : d.kind with
        | record fs doc => simp only [ctorSts, ctor_record hq hk] at e1; cases e1
        | enum s e v => rw [hk] at h; cases j <;> cases h
        | fixed k => rw [hk] at h; cases j <;> cases h

theorem symbolConst_eq (syms : List Str) (type s : Str) : symbolConst P.nm type syms s = constant P syms type (symbolGoName P.nm type s) := rfl

theorem below (hG : Generated P bodies) : ∀ k, Below P bodies k
  | 0 => ⟨fun t v h => (by cases h), fun j t a c r h => (by cases h)⟩
  | k + 1 => by
    have hB := below hG k
    constructor
    · intro t v h
      cases t with
      | prim p d => cases p <;> cases h <;> exact .nil
      | array it d => cases h; exact ⟨0, by rw [ctor_run (e := .makeSlice (goTypeOf P.nm P.n (.array it d))) rfl]; rfl⟩
      | map it d => cases h; exact ⟨0, by rw [ctor_run (e := .makeMap (goTypeOf P.nm P.n (.map it d))) rfl]; rfl⟩
      | union name ts d =>
        cases h
        exact ⟨1, by rw [ctor_run (e := .call (newName ((PTy.union name ts d).goName P.nm P.n))) rfl]; rfl⟩
      | ref q =>
        simp only [PTy.erase, construct] at h
        cases hq : P.n.find q with
        | none => rw [env_find, hq] at h; cases h
        | some d =>
          rw [find_erase hq] at h
          dsimp only at h
          cases hk : d.kind with
          | record fs doc =>
            rw [kind_record hk] at h
            dsimp only at h
            obtain ⟨vs, e, rfl⟩ := map_ok h
            obtain ⟨g, hg⟩ := hG.bodies _ _ _ _ hq hk
            obtain ⟨m, hm⟩ := new_run hG hB hq hk fs [] [] vs _ rfl rfl e hg
            refine ⟨m + 1, ?_⟩
            rw [ctor_run (ctor_record hq hk)]
            simp only [makes, hq, hk]
            rw [List.nil_append, List.nil_append] at hm
            rw [hm]; rfl
          | enum s e x =>
            rw [kind_enum hk] at h
            cases h
            rw [show zeroVal P.n.env (.ref q) = _ from zero_eq (.ref q) (fun q' e => by cases e; exact ⟨d, hq, fun fs doc h => by rw [hk] at h; cases h⟩),
              ctor_none (by simp only [PTy.ctor, hq, hk])]
            exact .nil
          | fixed x =>
            rw [kind_fixed hk] at h
            cases h
            rw [show zeroVal P.n.env (.ref q) = _ from zero_eq (.ref q) (fun q' e => by cases e; exact ⟨d, hq, fun fs doc h => by rw [hk] at h; cases h⟩),
              ctor_none (by simp only [PTy.ctor, hq, hk])]
            exact .nil
    · intro j t a c r h hw
      cases t with
      | prim p d =>
        cases p with
        | null => cases h; exact ⟨[], rfl, .nil⟩
        | bool => cases j <;> cases h; exact ⟨_, rfl, 0, rfl⟩
        | bytes => cases j <;> cases h; exact ⟨_, rfl, 0, rfl⟩
        | string => cases j <;> cases h; exact ⟨_, rfl, 0, rfl⟩
        | int =>
          simp only [PTy.erase, Prim.ty, applyDefault, intDefault] at h
          cases hj : j.number with
          | none => rw [hj] at h; cases h
          | some x =>
            obtain ⟨y, e⟩ := x
            rw [hj] at h
            dsimp only at h
            rw [← int_run] at h
            refine ⟨[.assign [] (.num (numberToks y e))], by simp only [defaultSts, hj], 0, ?_⟩
            rw [number_value (numberToks_read hj)]
            exact h
        | long =>
          simp only [PTy.erase, Prim.ty, applyDefault, intDefault] at h
          cases hj : j.number with
          | none => rw [hj] at h; cases h
          | some x =>
            obtain ⟨y, e⟩ := x
            rw [hj] at h
            dsimp only at h
            rw [← long_run] at h
            refine ⟨[.assign [] (.num (numberToks y e))], by simp only [defaultSts, hj], 0, ?_⟩
            rw [number_value (numberToks_read hj)]
            exact h
        | float =>
          simp only [PTy.erase, Prim.ty, applyDefault, floatDefault] at h
          cases hj : j.number with
          | none => rw [hj] at h; cases h
          | some x =>
            obtain ⟨y, e⟩ := x
            rw [hj] at h
            dsimp only at h
            have hr := numberToks_read hj
            generalize literal y e = z at h hr
            refine ⟨[.assign [] (.num (numberToks y e))], by simp only [defaultSts, hj], 0, ?_⟩
            rw [number_value hr]
            exact (float_run z).trans h
        | double =>
          simp only [PTy.erase, Prim.ty, applyDefault, floatDefault] at h
          cases hj : j.number with
          | none => rw [hj] at h; cases h
          | some x =>
            obtain ⟨y, e⟩ := x
            rw [hj] at h
            dsimp only at h
            have hr := numberToks_read hj
            generalize literal y e = z at h hr
            refine ⟨[.assign [] (.num (numberToks y e))], by simp only [defaultSts, hj], 0, ?_⟩
            rw [number_value hr]
            exact (double_run z).trans h
      | array it d =>
        cases j with
        | arr js =>
          simp only [PTy.erase, applyDefault] at h
          obtain ⟨vs, e, rfl⟩ := map_ok h
          obtain ⟨L, e1, r1⟩ := items_run hB it d a js 0 vs e
          refine ⟨.assign [] (.sized (goTypeOf P.nm P.n (.array it d)) js.length) :: L, ?_, ?_⟩
          · simp only [defaultSts]; rw [ok_bind e1]; rfl
          · have r0 : Runs P bodies [.assign [] (.sized (goTypeOf P.nm P.n (.array it d)) js.length)] (.array it d) a c
                (some (.array ([] ++ List.replicate js.length (zero P it)))) := ⟨0, by simp only [run, step, change, value, if_true]; rfl⟩
            exact r0.append (r1 [] rfl)
        | _ => cases h
      | map it d =>
        cases j with
        | obj kvs =>
          have no : ∀ x : Made (Option Val), x = (applyNilMap (fun j => applyDefault P.nm P.n.env k j it.erase false none) kvs).map (fun _ => c) → x = .ok r →
              ∃ L, defaultSts P.nm P.n (k + 1) (.obj kvs) (.map it d) = .ok L ∧ Runs P bodies L (.map it d) a c r := by
            intro x e1 e2
            rw [e1] at e2
            obtain ⟨_, e3, rfl⟩ := map_ok e2
            exact ⟨[], nilMap_run hB it kvs e3, .nil⟩
          cases c with
          | none => exact no _ rfl h
          | some c => cases c with
            | map m =>
              simp only [PTy.erase, applyDefault] at h
              obtain ⟨m', e, rfl⟩ := map_ok h
              obtain ⟨h1, h2⟩ := hw _ rfl it.erase rfl
              exact entries_run hB it d a kvs m m' e h1 h2
            | _ => exact no _ rfl h
        | _ => cases h
      | union name ts d =>
        cases ts with
        | nil => cases h
        | cons u ts =>
          simp only [PTy.erase, PTy.erases, applyDefault] at h
          rw [nullTy_erase] at h
          cases hu : nullTy u with
          | true =>
            rw [hu, if_pos rfl] at h
            cases h
            refine ⟨[.assign [] .nil], by simp only [defaultSts, hu, if_true], 0, ?_⟩
            simp only [run, step, change, value, List.any_cons, hu, Bool.true_or, if_true]
          | false =>
            rw [hu, if_neg (by decide)] at h
            have ha : List.any (u.erase :: PTy.erases ts) Ty.isNull = (u :: ts).any nullTy := (any_null_erase (u :: ts)).symm
            rw [ha] at h
            by_cases hc : a = false ∧ (u :: ts).any nullTy = false
            · rw [if_pos hc] at h; cases h
            · rw [if_neg hc] at h
              obtain ⟨v0, h0, h⟩ := bind_ok h
              obtain ⟨o, h1, h⟩ := bind_ok h
              cases h
              obtain ⟨l, e1, r1⟩ := hB.set j u true _ _ h1 (.some ((default_whole P.nm P.n.env k).1 _ _ h0))
              obtain ⟨m1, r1'⟩ := r1
              obtain ⟨v, rfl⟩ := run_some l r1'
              have r1 : Runs P bodies l u true (some v0) (some v) := ⟨m1, r1'⟩
              refine ⟨.assign [] (.new (.call (newName ((PTy.union name (u :: ts) d).goName P.nm P.n)))) ::
                (ctorSts P.nm P.n u ++ l).map (.under (.field (u.goName P.nm P.n))), ?_, ?_⟩
              · simp only [defaultSts, hu]; rw [if_neg (by decide), ok_bind e1]; rfl
              · have r0 : Runs P bodies [.assign [] (.new (.call (newName ((PTy.union name (u :: ts) d).goName P.nm P.n))))] (.union name (u :: ts) d) a c
                    (some (.union 0 none)) := ⟨1, by simp only [run, step, change, value, if_true]; rfl⟩
                exact r0.append (Runs.member (member_sts hu e1) (x := none) hc ((hB.make _ _ h0).append r1))
      | ref q =>
        simp only [PTy.erase, applyDefault] at h
        cases hq : P.n.find q with
        | none => rw [env_find, hq] at h; cases h
        | some d =>
          rw [find_erase hq] at h
          dsimp only at h
          cases hk : d.kind with
          | enum s e x =>
            rw [kind_enum hk] at h
            dsimp only at h
            cases j with
            | str y =>
              obtain ⟨v, e1, rfl⟩ := map_ok h
              refine ⟨[.assign [] (.const (symbolGoName P.nm (d.goName P.nm) y))], by simp only [defaultSts, hq, hk], 0, ?_⟩
              have e2 : orBuild (constant P s (d.goName P.nm) (symbolGoName P.nm (d.goName P.nm) y)) = .ok v := e1
              simp only [run, step, change, value, hq, hk]
              cases hx : constant P s (d.goName P.nm) (symbolGoName P.nm (d.goName P.nm) y) with
              | none => rw [hx] at e2; cases e2
              | some w => rw [hx] at e2; cases e2; rfl
            | _ => cases h
          | fixed x =>
            rw [kind_fixed hk] at h
            dsimp only at h
            cases j with
            | str y =>
              cases a with
              | false => cases h
              | true => cases c with
                | none => cases h
                | some c => cases c with
                  | fixed bs =>
                    cases h
                    exact ⟨[.copy [] (utf8 y)], by simp only [defaultSts, hq, hk], 0, by simp only [run, step, change, copied, hq, hk]⟩
                  | _ => cases h
            | _ => cases h
          | record fs doc =>
            rw [kind_record hk] at h
            dsimp only at h
            cases j with
            | obj kvs =>
              have no : ∀ x : Made (Option Val), x = (applyEntryFields (fs.map PField.erase) (fun j t => applyDefault P.nm P.n.env k j t false none) kvs).map (fun _ => c) → x = .ok r →
                  ∃ L, defaultSts P.nm P.n (k + 1) (.obj kvs) (.ref q) = .ok L ∧ Runs P bodies L (.ref q) a c r := by
                intro x e1 e2
                rw [e1] at e2
                obtain ⟨_, e3, rfl⟩ := map_ok e2
                exact ⟨[], by simp only [defaultSts, hq, hk]; exact entryFields_run hB fs kvs e3, .nil⟩
              cases a with
              | false => exact no _ rfl h
              | true => cases c with
                | none => exact no _ rfl h
                | some c => cases c with
                  | record vs =>
                    dsimp only at h
                    obtain ⟨vs', e, rfl⟩ := map_ok h
                    obtain ⟨L, e1, r1⟩ := fields_run hG hB hq hk kvs vs vs' e (hw _ rfl q _ _ rfl (find_erase hq) (kind_record hk))
                    exact ⟨L, by simp only [defaultSts, hq, hk]; exact e1, r1⟩
                  | _ => exact no _ rfl h
            | _ => cases h

end Verif
