import Verif.Generic.Exact
/-
Reading data under the schema that wrote it involves no promotion and no default.
-/
namespace Verif
set_option linter.unusedSimpArgs false
set_option linter.unusedVariables false

theorem readerOf_self {env : Env} {t : Ty} (h : t.isUnion = false) : readerOf env env t t = t := by
  cases t <;> first | rfl | (simp [Ty.isUnion] at h; done)

theorem exactEntries_iff {we re : Env} {w r : Ty} : ∀ {es : List (List Byte × Datum)},
    ExactEntries we re es w r ↔ ∀ e ∈ es, Exact we re e.2 w r
  | [] => by simp [ExactEntries]
  | (k, d) :: es => by simp [ExactEntries, exactEntries_iff (es := es)]

section
variable {env : Env} (hE : SelfOK env) {lim : Nat}
include hE

mutual
theorem exact_self : ∀ (v : Val) (t : Ty) (d : Datum), t.Closed env → HasTy env lim v t → Repr env v t d →
    Exact env env d t t
  | .null, t, d, ht, hv, hr => by cases (hr : d = _); simp [Exact]
  | .bool b, t, d, ht, hv, hr => by cases (hv : t = _); cases (hr : d = _); simp [Exact, readerOf]
  | .int b, t, d, ht, hv, hr => by cases (hv : t = _); cases (hr : d = _); simp [Exact, readerOf]
  | .long b, t, d, ht, hv, hr => by cases (hv : t = _); cases (hr : d = _); simp [Exact, readerOf]
  | .float b, t, d, ht, hv, hr => by cases (hv : t = _); cases (hr : d = _); simp [Exact, readerOf]
  | .double b, t, d, ht, hv, hr => by cases (hv : t = _); cases (hr : d = _); simp [Exact, readerOf]
  | .bytes b, t, d, ht, hv, hr => by obtain ⟨rfl, _⟩ := hv; cases (hr : d = _); simp [Exact, readerOf]
  | .string b, t, d, ht, hv, hr => by obtain ⟨rfl, _⟩ := hv; cases (hr : d = _); simp [Exact, readerOf]
  | .fixed b, t, d, ht, hv, hr => by cases (hr : d = _); simp [Exact]
  | .enum b, t, d, ht, hv, hr => by cases (hr : d = _); simp [Exact]
  | .array vs, t, d, ht, hv, hr => by
    obtain ⟨item, rfl, _, hv⟩ := hv
    obtain ⟨item', ds, h1, h2, rfl⟩ := hr
    cases h1
    simp only [Exact, readerOf, Ty.itemOr]
    exact exact_self_items vs item ds ht hv h2
  | .map es, t, d, ht, hv, hr => by
    obtain ⟨item, rfl, _, hs, hv⟩ := hv
    obtain ⟨item', kds, kds', h1, h2, hp, rfl⟩ := hr
    cases h1
    simp only [Exact, readerOf, Ty.itemOr]
    have := exactEntries_iff.1 (exact_self_entries es item kds ht hv h2)
    exact exactEntries_iff.2 fun e he => this e (hp.mem_iff.2 he)
  | .nil, t, d, ht, hv, hr => by
    obtain ⟨ts, i, rfl, hi, rfl⟩ := hr
    simp only [Exact]
    intro ts' t h1 h2
    cases h1
    rw [nullIndex_isNull hi] at h2; cases h2
    simp [Ty.isNull]
  | .union tag none, t, d, ht, hv, hr => by cases hv
  | .union tag (some v), t, d, ht, hv, hr => by
    obtain ⟨ts, u, d', rfl, hu, hr, rfl⟩ := hr
    obtain ⟨ts', u', h1, hu', hlen, hnn, hv⟩ := hv
    cases h1
    rw [hu] at hu'; cases hu'
    obtain ⟨_, hnd, hcl⟩ := ht
    have hmem : u ∈ ts := List.mem_of_getElem? hu
    simp only [Exact]
    intro ts' u' h1 h2
    cases h1
    rw [hu] at h2; cases h2
    simp only [hnn, pickBranch, findGoName hnd hu, Bool.false_eq_true, if_false]
    exact exact_self v u d' (allClosed_mem hcl hmem) hv hr
  | .record vs, t, d, ht, hv, hr => by
    obtain ⟨q, df, fs, rfl, hq, hk, hv⟩ := hv
    obtain ⟨q', df', fs', ds, h1, hq', hk', hr, rfl⟩ := hr
    cases h1
    rw [hq] at hq'; cases hq'
    rw [hk] at hk'; cases hk'
    simp only [Exact, readerOf, Ty.kindIn, hq, Option.map_some, hk]
    refine ⟨fun i rf hi => ⟨rf, List.mem_of_getElem? hi, hE.apart.self hq hk hi⟩, ?_⟩
    exact exact_self_fields vs fs fs ds (fun f hf => by
      obtain ⟨i, hi⟩ := List.getElem?_of_mem hf
      exact ⟨i, hE.apart.self hq hk hi⟩) (fun f hf => hE.closed q df fs f hq hk hf) hv hr
theorem exact_self_items : ∀ (vs : List Val) (t : Ty) (ds : List Datum), t.Closed env →
    AllHaveTy env lim vs t → ReprAll env vs t ds → ExactItems env env ds t t
  | [], t, ds, _, _, hr => by cases (hr : ds = _); simp [ExactItems]
  | v :: vs, t, ds, ht, hv, hr => by
    obtain ⟨d, ds', rfl, h1, h2⟩ := hr
    exact ⟨exact_self v t d ht hv.1 h1, exact_self_items vs t ds' ht hv.2 h2⟩
theorem exact_self_entries : ∀ (es : List (List Byte × Val)) (t : Ty) (kds : List (List Byte × Datum)),
    t.Closed env → EntriesHaveTy env lim es t → ReprEntries env es t kds → ExactEntries env env kds t t
  | [], t, kds, _, _, hr => by cases (hr : kds = _); simp [ExactEntries]
  | (k, v) :: es, t, kds, ht, hv, hr => by
    obtain ⟨d, kds', rfl, h1, h2⟩ := hr
    exact ⟨exact_self v t d ht hv.2.1 h1, exact_self_entries es t kds' ht hv.2.2 h2⟩
theorem exact_self_fields : ∀ (vs : List Val) (fs all : List Field) (ds : List Datum),
    (∀ f ∈ fs, ∃ i, fieldByName all f.name = some (i, f)) → (∀ f ∈ fs, f.ty.Closed env) →
    FieldsHaveTy env lim vs fs → ReprFields env vs fs ds → ExactFields env env ds fs all
  | [], fs, all, ds, _, _, hv, hr => by cases (hr : ds = _); simp [ExactFields]
  | v :: vs, fs, all, ds, hf, hc, hv, hr => by
    obtain ⟨f, fs', rfl, hv1, hv2⟩ := hv
    obtain ⟨f', fs'', d, ds', h1, rfl, hr1, hr2⟩ := hr
    cases h1
    obtain ⟨i, hi⟩ := hf f (by simp)
    refine ⟨?_, exact_self_fields vs fs' all ds' (fun g hg => hf g (by simp [hg])) (fun g hg => hc g (by simp [hg])) hv2 hr2⟩
    rw [hi]
    exact exact_self v f.ty d (hc f (by simp)) hv1 hr1
end
end
end Verif
