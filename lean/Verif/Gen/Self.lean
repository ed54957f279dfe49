import Verif.Gen.SerEnc
import Verif.Compiler.Flags
import Verif.Compiler.WF
/-
Reading data under the schema that wrote it: the schema reads itself, compiling it against
itself succeeds, and resolution gives back the value that was written.
-/
namespace Verif
set_option linter.unusedSimpArgs false
set_option linter.unusedVariables false

mutual
/-- The references of a type resolve; its unions are not empty and have no two members of
the same Go name. -/
def Ty.Closed (env : Env) : Ty → Prop
  | .array t => t.Closed env
  | .map t => t.Closed env
  | .union ts => ts ≠ [] ∧ (ts.map (Ty.goName env)).Nodup ∧ Ty.AllClosed env ts
  | .ref q => ∃ d, env.find q = some d
  | _ => True
def Ty.AllClosed (env : Env) : List Ty → Prop
  | [] => True
  | t :: ts => t.Closed env ∧ Ty.AllClosed env ts
end

/-- No field of a record is found under the name of another. -/
def FieldsApart (env : Env) : Prop :=
  ∀ q d fs, env.find q = some d → d.kind = .record fs → ∀ (i j : Nat) (f g : Field), fs[i]? = some f →
    fs[j]? = some g → (g.name = f.name ∨ f.name ∈ g.aliases) → i = j

/-- The symbols of an enum are different. -/
def SymbolsApart (env : Env) : Prop :=
  ∀ q d ss dflt, env.find q = some d → d.kind = .enum ss dflt → ss.Nodup

/-- The types of the fields are closed. -/
def FieldsClosed (env : Env) : Prop :=
  ∀ q d fs f, env.find q = some d → d.kind = .record fs → f ∈ fs → f.ty.Closed env

/-- Conditions on the definitions of a schema that is to read what it wrote. -/
structure SelfOK (env : Env) : Prop where
  apart : FieldsApart env
  symbols : SymbolsApart env
  closed : FieldsClosed env

theorem allClosed_mem {env : Env} {t : Ty} : ∀ {ts : List Ty}, Ty.AllClosed env ts → t ∈ ts → t.Closed env
  | [], _, h => by simp at h
  | u :: ts, h, hm => by
    rcases List.mem_cons.1 hm with rfl | hm
    · exact h.1
    · exact allClosed_mem h.2 hm

/-! ### looking things up -/

theorem fieldByNameFrom_spec {n : Str} {fs : List Field} : ∀ {k : Nat} {i : Nat} {f : Field},
    fs[i]? = some f → f.name = n → (∀ j g, fs[j]? = some g → (g.name = n ∨ n ∈ g.aliases) → j = i) →
    fieldByNameFrom k fs n = some (k + i, f) := by
  induction fs with
  | nil => intro k i f h; simp at h
  | cons x fs ih =>
    intro k i f h hn hu
    simp only [fieldByNameFrom]
    by_cases hx : x.name = n ∨ n ∈ x.aliases
    · rw [if_pos hx]
      have := hu 0 x (by simp) hx
      subst this
      simp at h; simp [h]
    · rw [if_neg hx]
      cases i with
      | zero => simp at h; subst h; exact absurd (.inl hn) hx
      | succ i =>
        simp at h
        rw [ih h hn (by intro j g hj hg; have := hu (j + 1) g (by simpa using hj) hg; omega)]
        simp; omega

theorem FieldsApart.self {env : Env} (h : FieldsApart env) {q d fs} (hq : env.find q = some d)
    (hk : d.kind = .record fs) {i f} (hi : fs[i]? = some f) : fieldByName fs f.name = some (i, f) := by
  have := fieldByNameFrom_spec (k := 0) hi rfl fun j g hj hg => (h q d fs hq hk i j f g hi hj hg).symm
  simpa [fieldByName] using this

theorem symbolIndexFrom_spec {s : Str} {ss : List Str} : ∀ {k i : Nat}, ss.Nodup → ss[i]? = some s →
    symbolIndexFrom k ss s = some (k + i) := by
  induction ss with
  | nil => intro k i _ h; simp at h
  | cons x ss ih =>
    intro k i hn h
    simp only [symbolIndexFrom]
    cases i with
    | zero => simp at h; simp [h]
    | succ i =>
      simp at h
      have hne : x ≠ s := by
        rintro rfl
        exact (List.nodup_cons.1 hn).1 (List.mem_of_getElem? h)
      rw [if_neg hne, ih (List.nodup_cons.1 hn).2 h]
      simp; omega

theorem symbolIndex_spec {s : Str} {ss : List Str} {i : Nat} (hn : ss.Nodup) (h : ss[i]? = some s) :
    symbolIndex ss s = some i := by
  simpa [symbolIndex] using symbolIndexFrom_spec (k := 0) hn h

theorem findIdx_spec {p : Ty → Bool} {ts : List Ty} : ∀ {k i : Nat} {t : Ty}, ts[i]? = some t → p t = true →
    (∀ j u, ts[j]? = some u → p u = true → j = i) → findIdx p k ts = some (k + i, t) := by
  induction ts with
  | nil => intro k i t h; simp at h
  | cons x ts ih =>
    intro k i t h hp hu
    simp only [findIdx]
    by_cases hx : p x = true
    · rw [if_pos hx]
      have := hu 0 x (by simp) hx
      subst this
      simp at h; simp [h]
    · rw [if_neg hx]
      cases i with
      | zero => simp at h; subst h; exact absurd hp hx
      | succ i =>
        simp at h
        rw [ih h hp (by intro j g hj hg; have := hu (j + 1) g (by simpa using hj) hg; omega)]
        simp; omega

theorem findGoName {env : Env} {ts : List Ty} {i : Nat} {t : Ty} (hn : (ts.map (Ty.goName env)).Nodup)
    (h : ts[i]? = some t) : findIdx (fun r => r.goName env == t.goName env) 0 ts = some (i, t) := by
  have := findIdx_spec (p := fun r => r.goName env == t.goName env) (k := 0) h (by simp) (by
    intro j u hu he
    simp only [beq_iff_eq] at he
    have h1 : (ts.map (Ty.goName env))[j]? = some (t.goName env) := by simp [hu, he]
    have h2 : (ts.map (Ty.goName env))[i]? = some (t.goName env) := by simp [h]
    exact (List.getElem?_inj (List.getElem?_eq_some_iff.1 h1).1 hn).1 (by rw [h1, h2]))
  simpa using this

/-! ### a type reads itself -/

theorem defReads_self (d : Def) : d.readableBy d = true := by
  unfold Def.readableBy
  cases d.kind <;> simp [hasMatchingName]

mutual
/-- Every type reads itself. -/
theorem reads_self (env : Env) : ∀ t : Ty, t.Closed env → t.readableBy env env t = true
  | .null, _ => rfl
  | .bool, _ => rfl
  | .int, _ => rfl
  | .long, _ => rfl
  | .float, _ => rfl
  | .double, _ => rfl
  | .bytes, _ => rfl
  | .string, _ => rfl
  | .array t, h => by
    simp only [Ty.readableBy, anyBranch]
    exact reads_self env t h
  | .map t, h => by
    simp only [Ty.readableBy, anyBranch]
    exact reads_self env t h
  | .ref q, h => by
    obtain ⟨d, hd⟩ := h
    simp only [Ty.readableBy, anyBranch, hd]
    exact defReads_self d
  | .union ts, h => by
    obtain ⟨h1, _, h3⟩ := h
    simp only [Ty.readableBy]
    cases ts with
    | nil => exact absurd rfl h1
    | cons t ts =>
      simp only [Ty.anyReadable, List.any_cons, reads_self env t h3.1, Bool.true_or]
end

/-! ### resolution -/

theorem intoReader_self {we re : Env} {w : Ty} {f : Ty → Option Val} {r : Ty} (h : r.isUnion = false) :
    intoReader we re w f r = f r := by
  cases r <;> simp [Ty.isUnion] at h <;> rfl

theorem defAs_self {env : Env} {q : QName} {d : Def} (h : env.find q = some d)
    (k : DefKind → DefKind → Option Val) : defAs env env q k (.ref q) = k d.kind d.kind := by
  simp [defAs, h, defReads_self]

theorem fillDefaults_some (dv : Field → Val) : ∀ (fs : List Field) (vs : List Val), fs.length = vs.length →
    fillDefaults dv fs (vs.map some) = some vs
  | [], [], _ => rfl
  | [], _ :: _, h => by simp at h
  | _ :: _, [], h => by simp at h
  | f :: fs, v :: vs, h => by
    simp only [List.map_cons, fillDefaults]
    rw [fillDefaults_some dv fs vs (by simpa using h)]
    rfl

theorem bvInt64_of_toNat {x : BitVec 64} (h : x.toNat < 2 ^ 63) : BitVec.ofInt 64 (x.toNat : Int) = x := by
  apply BitVec.eq_of_toNat_eq
  simp only [BitVec.toNat_ofInt]
  omega

theorem fieldsHaveTy_length {env : Env} {lim : Nat} : ∀ {vs : List Val} {fs : List Field},
    FieldsHaveTy env lim vs fs → vs.length = fs.length
  | [], fs, h => by cases (h : fs = []); rfl
  | v :: vs, fs, h => by
    obtain ⟨f, fs', rfl, _, h⟩ := h
    simp [fieldsHaveTy_length h]

theorem resolveEntries_perm {drop : Datum → Bool} {dv : Field → Val} {we re : Env} {w r : Ty}
    {kds kds' : List (List Byte × Datum)} (hp : kds.Perm kds') : ∀ {es : List (List Byte × Val)},
    resolveEntries drop dv we re kds w r = some es →
    ∃ es', resolveEntries drop dv we re kds' w r = some es' ∧ es.Perm es' := by
  induction hp with
  | nil => intro es h; exact ⟨es, h, .refl _⟩
  | cons x _ ih =>
    obtain ⟨k, d⟩ := x
    intro es h
    simp only [resolveEntries] at h ⊢
    cases hd : resolve drop dv we re d w r with
    | none => simp [hd] at h
    | some v =>
      simp only [hd, Option.map_eq_some_iff] at h ⊢
      obtain ⟨es1, h1, rfl⟩ := h
      obtain ⟨es', h2, h3⟩ := ih h1
      exact ⟨(k, v) :: es', ⟨es', h2, rfl⟩, h3.cons _⟩
  | swap x y l =>
    obtain ⟨k, d⟩ := x
    obtain ⟨k', d'⟩ := y
    intro es h
    simp only [resolveEntries] at h ⊢
    cases hd : resolve drop dv we re d w r with
    | none => cases hd' : resolve drop dv we re d' w r <;> simp [hd, hd'] at h
    | some v =>
      cases hd' : resolve drop dv we re d' w r with
      | none => simp [hd'] at h
      | some v' =>
        simp only [hd, hd', Option.map_map, Option.map_eq_some_iff, Function.comp_apply] at h ⊢
        obtain ⟨es1, h1, rfl⟩ := h
        exact ⟨_, ⟨es1, h1, rfl⟩, .swap _ _ _⟩
  | trans _ _ ih1 ih2 =>
    intro es h
    obtain ⟨es1, h1, h2⟩ := ih1 h
    obtain ⟨es2, h3, h4⟩ := ih2 h1
    exact ⟨es2, h3, h2.trans h4⟩

section
variable {env : Env} (hE : SelfOK env) (drop : Datum → Bool) (dv : Field → Val) {lim : Nat}
include hE

mutual
/-- Resolving a datum that represents `v` under the schema that wrote it gives `v`. -/
theorem resolve_self : ∀ (v : Val) (t : Ty) (d : Datum), t.Closed env → HasTy env lim v t → Repr env v t d →
    resolve drop dv env env d t t = some v
  | .null, t, d, ht, hv, hr => by
    cases (hv : t = _); cases (hr : d = _); rfl
  | .bool b, t, d, ht, hv, hr => by
    cases (hv : t = _); cases (hr : d = _); rfl
  | .int b, t, d, ht, hv, hr => by
    cases (hv : t = _); cases (hr : d = _); rfl
  | .long b, t, d, ht, hv, hr => by
    cases (hv : t = _); cases (hr : d = _); rfl
  | .float b, t, d, ht, hv, hr => by
    cases (hv : t = _); cases (hr : d = _); rfl
  | .double b, t, d, ht, hv, hr => by
    cases (hv : t = _); cases (hr : d = _); rfl
  | .bytes b, t, d, ht, hv, hr => by
    obtain ⟨rfl, _⟩ := hv; cases (hr : d = _); rfl
  | .string b, t, d, ht, hv, hr => by
    obtain ⟨rfl, _⟩ := hv; cases (hr : d = _); rfl
  | .fixed b, t, d, ht, hv, hr => by
    obtain ⟨q, df, rfl, hq, hk⟩ := hv; cases (hr : d = _)
    simp only [resolve, intoReader_self (r := .ref q) rfl, defAs_self hq, hk, fixedAs]
  | .enum b, t, d, ht, hv, hr => by
    obtain ⟨q, df, ss, dflt, rfl, hq, hk, h0, h1⟩ := hv; cases (hr : d = _)
    simp only [resolve, intoReader_self (r := .ref q) rfl, defAs_self hq, hk, enumAs, if_pos h0]
    have hlt : b.toInt.toNat < ss.length := by omega
    rw [List.getElem?_eq_getElem hlt]
    simp only [symbolAs]
    rw [symbolIndex_spec (hE.symbols q df ss dflt hq hk) (List.getElem?_eq_getElem hlt)]
    simp only [Option.some.injEq, Val.enum.injEq]
    apply BitVec.eq_of_toInt_eq
    rw [BitVec.toInt_ofInt]
    have := b.toInt_lt; have := b.le_toInt
    rw [show ((b.toInt.toNat : Nat) : Int) = b.toInt by omega]
    exact Int.bmod_eq_of_le (by omega) (by omega)
  | .array vs, t, d, ht, hv, hr => by
    obtain ⟨item, rfl, _, hv⟩ := hv
    obtain ⟨item', ds, h1, h2, rfl⟩ := hr
    cases h1
    simp only [resolve, intoReader_self (r := .array item) rfl]
    rw [resolve_self_items vs item ds ht hv h2]; rfl
  | .map es, t, d, ht, hv, hr => by
    obtain ⟨item, rfl, _, hs, hv⟩ := hv
    obtain ⟨item', kds, kds', h1, h2, hp, rfl⟩ := hr
    cases h1
    simp only [resolve, intoReader_self (r := .map item) rfl]
    have key : ∀ kds' : List (List Byte × Datum), kds.Perm kds' →
        ∃ es', resolveEntries drop dv env env kds' item item = some es' ∧ es.Perm es' := by
      have hok := resolve_self_entries es item kds ht hv h2
      intro kds' hp
      exact resolveEntries_perm hp hok
    obtain ⟨es', h3, h4⟩ := key kds' hp
    rw [h3]
    simp only [Option.map_some, Option.some.injEq, Val.map.injEq]
    exact mapOf_perm hs h4
  | .nil, t, d, ht, hv, hr => by
    obtain ⟨ts, i, rfl, hi, rfl⟩ := hr
    obtain ⟨_, h1, hn, _⟩ := hv
    simp only [resolve, nullIndex_isNull hi, Ty.isNull, if_true, readNull]
    rw [if_pos hn]
  | .union tag none, t, d, ht, hv, hr => by cases hv
  | .union tag (some v), t, d, ht, hv, hr => by
    obtain ⟨ts, u, d', rfl, hu, hr, rfl⟩ := hr
    obtain ⟨ts', u', h1, hu', hlen, hnn, hv⟩ := hv
    cases h1
    rw [hu] at hu'; cases hu'
    obtain ⟨_, hnd, hcl⟩ := ht
    have hmem : u ∈ ts := List.mem_of_getElem? hu
    have hlt := (List.getElem?_eq_some_iff.1 hu).1
    simp only [resolve, hu, hnn, pickBranch, findGoName hnd hu]
    rw [resolve_self v u d' (allClosed_mem hcl hmem) hv hr]
    simp only [Option.map_some, bvInt64_of_toNat (x := tag) (by omega)]
    rfl
  | .record vs, t, d, ht, hv, hr => by
    obtain ⟨q, df, fs, rfl, hq, hk, hv⟩ := hv
    obtain ⟨q', df', fs', ds, h1, hq', hk', hr, rfl⟩ := hr
    cases h1
    rw [hq] at hq'; cases hq'
    rw [hk] at hk'; cases hk'
    simp only [resolve, intoReader_self (r := .ref q) rfl, defAs_self hq, hk]
    have hlen := fieldsHaveTy_length hv
    rw [resolve_self_fields vs fs fs 0 ds (List.replicate fs.length none) [] hv hr rfl (by simp)
      (fun f hf => hE.closed q df fs f hq hk hf)
      (fun i f hf => by
        have := hE.apart.self hq hk hf
        simpa using this) (by simp [hlen])]
    simp only [List.nil_append]
    rw [fillDefaults_some dv fs vs hlen.symm]; rfl
theorem resolve_self_items : ∀ (vs : List Val) (t : Ty) (ds : List Datum), t.Closed env →
    AllHaveTy env lim vs t → ReprAll env vs t ds → resolveItems drop dv env env ds t t = some vs
  | [], t, ds, _, _, hr => by cases (hr : ds = _); rfl
  | v :: vs, t, ds, ht, hv, hr => by
    obtain ⟨d, ds', rfl, h1, h2⟩ := hr
    simp only [resolveItems, resolve_self v t d ht hv.1 h1, resolve_self_items vs t ds' ht hv.2 h2,
      Option.map_some]
theorem resolve_self_entries : ∀ (es : List (List Byte × Val)) (t : Ty) (kds : List (List Byte × Datum)),
    t.Closed env → EntriesHaveTy env lim es t → ReprEntries env es t kds →
    resolveEntries drop dv env env kds t t = some es
  | [], t, kds, _, _, hr => by cases (hr : kds = _); rfl
  | (k, v) :: es, t, kds, ht, hv, hr => by
    obtain ⟨d, kds', rfl, h1, h2⟩ := hr
    simp only [resolveEntries, resolve_self v t d ht hv.2.1 h1, resolve_self_entries es t kds' ht hv.2.2 h2,
      Option.map_some]
theorem resolve_self_fields : ∀ (vs : List Val) (fs all : List Field) (k : Nat) (ds : List Datum)
    (slots : List (Option Val)) (pre : List Val), FieldsHaveTy env lim vs fs → ReprFields env vs fs ds →
    pre.length = k → slots.take k = pre.map some → (∀ f ∈ fs, f.ty.Closed env) →
    (∀ i f, fs[i]? = some f → fieldByName all f.name = some (k + i, f)) →
    slots.length = k + vs.length →
    resolveFields drop dv env env ds fs all slots = some ((pre ++ vs).map some)
  | [], fs, all, k, ds, slots, pre, hv, hr, hk, hs, hc, hf, hl => by
    cases (hv : fs = _); cases (hr : ds = _)
    simp only [resolveFields, List.append_nil, Option.some.injEq]
    rw [← hs, List.take_of_length_le (by simp at hl; omega)]
  | v :: vs, fs, all, k, ds, slots, pre, hv, hr, hk, hs, hc, hf, hl => by
    obtain ⟨f, fs', rfl, hv1, hv2⟩ := hv
    obtain ⟨f', fs'', d, ds', h1, rfl, hr1, hr2⟩ := hr
    cases h1
    have hfn := hf 0 f (by simp)
    simp only [resolveFields, hfn, Nat.add_zero]
    rw [if_pos (reads_self env f.ty (hc f (by simp))),
      resolve_self v f.ty d (hc f (by simp)) hv1 hr1]
    simp only [List.length_cons] at hl
    have := resolve_self_fields vs fs' all (k + 1) ds' (slots.set k (some v)) (pre ++ [v]) hv2 hr2
      (by simp [hk]) (by
        rw [List.take_set, List.take_add_one, hs]
        rw [List.getElem?_eq_getElem (by omega)]
        simp only [Option.toList_some, List.map_append, List.map_cons, List.map_nil]
        rw [List.set_append_right _ _ (by simp [hk])]
        simp [hk])
      (fun g hg => hc g (by simp [hg]))
      (fun i g hg => by
        have := hf (i + 1) g (by simpa using hg)
        rw [this]; congr 2; omega)
      (by simp; omega)
    simp only [this]
    simp
end
end

/-! ### compiling a schema against itself -/

/-- The step succeeds unless it runs out of fuel. -/
def CRes.Fine (x : CRes) : Prop := x = .error .fuel ∨ ∃ y, x = .ok y

theorem fine_ok (y : List IR × CState) : CRes.Fine (.ok y) := .inr ⟨y, rfl⟩

theorem fine_wrap {a b : List IR} {x : CRes} (h : CRes.Fine x) : CRes.Fine (wrapIR a b x) := by
  rcases h with rfl | ⟨y, rfl⟩
  · exact .inl rfl
  · exact .inr ⟨_, rfl⟩

theorem fine_seq {x : CRes} {f : CState → CRes} (h : CRes.Fine x) (hf : ∀ st, CRes.Fine (f st)) :
    CRes.Fine (seqIR x f) := by
  rcases h with rfl | ⟨⟨irs, st⟩, rfl⟩
  · exact .inl rfl
  · exact fine_wrap (hf st)

theorem tableFrom_mem {y : Nat × Field} : ∀ {fs : List Field} {l : List (Nat × Field)} {i : Nat},
    y ∈ tableFrom l i fs → y ∈ l ∨ y.2 ∈ fs := by
  intro fs
  induction fs with
  | nil => intro l i h; exact .inl h
  | cons f fs ih =>
    intro l i h
    simp only [tableFrom] at h
    rcases ih h with h | h
    · simp only [insertField, List.mem_append, List.mem_filter, List.mem_cons, List.not_mem_nil, or_false] at h
      rcases h with h | rfl
      · exact .inl h.1
      · exact .inr (by simp)
    · exact .inr (by simp [h])

theorem dropMatched_self {fs : List Field} (hf : ∀ f ∈ fs, ∃ i, fieldByName fs f.name = some (i, f)) :
    ∀ {ws : List Field} {l : List (Nat × Field)}, (∀ w ∈ ws, w ∈ fs) → (∀ y ∈ l, y.2.name ∈ ws.map (·.name)) →
    dropMatched fs l ws = [] := by
  intro ws
  induction ws with
  | nil => intro l _ h; cases l with
    | nil => rfl
    | cons y l => have := h y (by simp); simp at this
  | cons w ws ih =>
    intro l hw h
    simp only [dropMatched]
    obtain ⟨i, hi⟩ := hf w (hw w (by simp))
    rw [hi]
    simp only
    refine ih (fun x hx => hw x (by simp [hx])) ?_
    intro y hy
    simp only [List.mem_filter, decide_eq_true_eq] at hy
    have := h y hy.1
    simp only [List.map_cons, List.mem_cons] at this
    rcases this with h1 | h1
    · exact absurd h1 hy.2
    · exact h1

theorem missingFields_self {fs : List Field} (hf : ∀ f ∈ fs, ∃ i, fieldByName fs f.name = some (i, f)) :
    missingFields fs fs = [] := by
  unfold missingFields
  refine dropMatched_self hf (fun w hw => hw) ?_
  intro y hy
  rcases tableFrom_mem hy with h | h
  · simp at h
  · exact List.mem_map.2 ⟨y.2, h, rfl⟩

section
variable {env : Env} (hE : SelfOK env) {ord : Orders} {rec : CState → Ty → Option Ty → CRes}
include hE

theorem fine_fields {all : List Field} (hrec : ∀ st t, t.Closed env → CRes.Fine (rec st t (some t)))
    (hf : ∀ f ∈ all, ∃ i, fieldByName all f.name = some (i, f)) (hc : ∀ f ∈ all, f.ty.Closed env) :
    ∀ (ws : List Field) st, (∀ w ∈ ws, w ∈ all) → CRes.Fine (compileFields env env rec (some all) ws st) := by
  intro ws
  induction ws with
  | nil => intro st _; exact fine_ok _
  | cons w ws ih =>
    intro st hw
    obtain ⟨i, hi⟩ := hf w (hw w (by simp))
    have hcl := hc w (hw w (by simp))
    simp only [compileFields, Option.bind_some, hi, reads_self env w.ty hcl, if_true]
    exact fine_seq (fine_wrap (hrec _ _ hcl)) fun st => ih st fun x hx => hw x (by simp [hx])

theorem fine_members (hrec : ∀ st t, t.Closed env → CRes.Fine (rec st t (some t))) {id : Nat} {all : List Ty}
    (hn : (all.map (Ty.goName env)).Nodup) (hc : Ty.AllClosed env all) :
    ∀ (ts : List Ty) (i : Nat) st, (∀ j t, ts[j]? = some t → all[i + j]? = some t) →
    CRes.Fine (compileMembers env env rec id (some (.union all)) i ts st) := by
  intro ts
  induction ts with
  | nil => intro i st _; exact fine_ok _
  | cons t ts ih =>
    intro i st h
    simp only [compileMembers]
    refine fine_seq ?_ fun st => ih (i + 1) st fun j u hu => by
      have := h (j + 1) u (by simpa using hu)
      rw [← this]; congr 1; omega
    have hi : all[i]? = some t := by simpa using h 0 t (by simp)
    simp only [compileMember, findGoName hn hi]
    split
    · exact fine_ok _
    · exact fine_wrap (hrec _ _ (allClosed_mem hc (List.mem_of_getElem? hi)))

theorem fine_symbols {id : Nat} {all : List Str} {d : Str} (hn : all.Nodup) : ∀ (ss : List Str) (i : Nat) st,
    (∀ j s, ss[j]? = some s → all[i + j]? = some s) → CRes.Fine (compileSymbols id all d i ss st) := by
  intro ss
  induction ss with
  | nil => intro i st _; exact fine_ok _
  | cons s ss ih =>
    intro i st h
    have hi : all[i]? = some s := by simpa using h 0 s (by simp)
    simp only [compileSymbols, symbolIndex_spec hn hi]
    exact fine_wrap (ih (i + 1) st fun j u hu => by
      have := h (j + 1) u (by simpa using hu)
      rw [← this]; congr 1; omega)

theorem fine_type : ∀ (n : Nat) st t, t.Closed env → CRes.Fine (compileType ord false env env n st t (some t)) := by
  intro n
  induction n with
  | zero => intro st t _; exact .inl rfl
  | succ n ih =>
    intro st t ht
    have hb : compileType ord false env env (n + 1) st t (some t) =
        compileBody ord false env env (compileType ord false env env n) t (some t) st := by
      cases t <;> rfl
    rw [hb]
    cases t with
    | null => exact fine_ok _
    | bool => exact fine_ok _
    | int => exact fine_ok _
    | long => exact fine_ok _
    | float => exact fine_ok _
    | double => exact fine_ok _
    | bytes => exact fine_ok _
    | string => exact fine_ok _
    | array t => exact fine_wrap (ih _ _ ht)
    | map t => exact fine_wrap (ih _ _ ht)
    | union ts =>
      obtain ⟨_, hn, hc⟩ := ht
      exact fine_wrap (fine_members hE ih hn hc ts 0 _ fun j u hu => by simpa using hu)
    | ref q =>
      obtain ⟨d, hd⟩ := ht
      simp only [compileBody, compileRef, hd, defReads_self, Bool.or_true, if_true, compileDef,
        Option.map_some]
      cases hk : d.kind with
      | fixed k => exact fine_ok _
      | enum ss dflt =>
        exact fine_wrap (fine_symbols hE (hE.symbols _ _ _ _ hd hk) ss 0 _ fun j u hu => by simpa using hu)
      | record fs =>
        have hf : ∀ f ∈ fs, ∃ i, fieldByName fs f.name = some (i, f) := by
          intro f hf
          obtain ⟨i, hi⟩ := List.mem_iff_getElem?.1 hf
          exact ⟨i, hE.apart.self hd hk hi⟩
        simp only [compileCall]
        split
        · exact fine_ok _
        · have : CRes.Fine (compileRecord ord env env (compileType ord false env env n) st.started.length fs
              (some fs) { st with started := st.started ++ [((true, d.goName), (d.name, some d.name))] }) := by
            refine fine_seq (fine_fields hE ih hf (fun f h => hE.closed _ _ _ _ hd hk h) fs _ fun w h => h) ?_
            intro st'
            have h0 := ord.defaults_perm st.started.length (missingFields fs fs)
            simp only
            rw [missingFields_self hf] at h0 ⊢
            rw [List.perm_nil.1 h0]
            exact fine_ok _
          rcases this with h | ⟨⟨b, s⟩, h⟩
          · simp only [h]; exact .inl rfl
          · simp only [h]; exact fine_ok _
end

/-- Compiling a schema against itself succeeds. -/
theorem compile_self {s : Schema} (hE : SelfOK s.env) (hr : s.root.Closed s.env) (ord : Orders) :
    ∃ prog, compile ord false s s = .ok prog := by
  have hne := compile_ends ord false s s
  unfold compile compileFuel at hne ⊢
  rcases fine_type hE (ord := ord) (compileBound s s) {} s.root hr with h | ⟨⟨main, st⟩, h⟩
  · rw [h] at hne; simp at hne
  · rw [h]
    exact link_total ord (emits_type ord false s.env s.env _ _ _ _ _ _ h)
end Verif
