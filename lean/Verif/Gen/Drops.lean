import Verif.Gen.ResolveFields
/-
When the reader has all the fields of the writer that can hold arrays or maps, what the code
can drop is what Avro's rules drop.
-/
namespace Verif
set_option linter.unusedSimpArgs false
set_option linter.unusedVariables false

/-- Types whose data contain no arrays and no maps. -/
inductive Flat (env : Env) : Ty → Prop
  | null : Flat env .null
  | bool : Flat env .bool
  | int : Flat env .int
  | long : Flat env .long
  | float : Flat env .float
  | double : Flat env .double
  | bytes : Flat env .bytes
  | string : Flat env .string
  | union {ts} : (∀ t ∈ ts, Flat env t) → Flat env (.union ts)
  | enum {q d ss dflt} : env.find q = some d → d.kind = .enum ss dflt → Flat env (.ref q)
  | fixed {q d n} : env.find q = some d → d.kind = .fixed n → Flat env (.ref q)
  | record {q d fs} : env.find q = some d → d.kind = .record fs → (∀ f ∈ fs, Flat env f.ty) → Flat env (.ref q)

/-- Whenever a record of the reader lacks a field of a record of the writer, that field's type
is `Flat`. -/
def DropsFlat (we re : Env) : Prop :=
  ∀ q q' wd rd wfs rfs, we.find q = some wd → re.find q' = some rd → wd.kind = .record wfs → rd.kind = .record rfs →
    ∀ w ∈ wfs, fieldByName rfs w.name = none → Flat we w.ty

mutual
theorem flat_skippable {env : Env} : ∀ (d : Datum) (t : Ty) (e : List Byte), Enc env d t e → Flat env t → d.skippable = true
  | .null, t, e, h, hf => rfl
  | .bool _, t, e, h, hf => rfl
  | .int _, t, e, h, hf => rfl
  | .long _, t, e, h, hf => rfl
  | .float _, t, e, h, hf => rfl
  | .double _, t, e, h, hf => rfl
  | .bytes _, t, e, h, hf => rfl
  | .string _, t, e, h, hf => rfl
  | .fixed _, t, e, h, hf => rfl
  | .enum _, t, e, h, hf => rfl
  | .array ds, t, e, h, hf => by obtain ⟨item, es, rfl, _⟩ := h; cases hf
  | .map es, t, e, h, hf => by obtain ⟨item, es, rfl, _⟩ := h; cases hf
  | .union i d, t, e, h, hf => by
    obtain ⟨ts, u, e', rfl, hu, he, _⟩ := h
    cases hf with
    | union hf => simp only [Datum.skippable]; exact flat_skippable d u e' he (hf u (List.mem_of_getElem? hu))
  | .record ds, t, e, h, hf => by
    obtain ⟨q, d, fs, rfl, hq, hk, he⟩ := h
    simp only [Datum.skippable]
    cases hf with
    | enum hq' hk' => rw [hq] at hq'; cases hq'; rw [hk] at hk'; cases hk'
    | fixed hq' hk' => rw [hq] at hq'; cases hq'; rw [hk] at hk'; cases hk'
    | record hq' hk' hf => rw [hq] at hq'; cases hq'; rw [hk] at hk'; cases hk'; exact flat_fields ds fs e he hf
theorem flat_fields {env : Env} : ∀ (ds : List Datum) (fs : List Field) (e : List Byte), EncFields env ds fs e →
    (∀ f ∈ fs, Flat env f.ty) → Datum.allSkippable ds = true
  | [], fs, e, h, hf => rfl
  | d :: ds, fs, e, h, hf => by
    obtain ⟨f, fs', e1, e2, rfl, h1, h2, _⟩ := h
    simp only [Datum.allSkippable, Bool.and_eq_true]
    exact ⟨flat_skippable d _ e1 h1 (hf f (by simp)), flat_fields ds fs' e2 h2 fun g hg => hf g (by simp [hg])⟩
end

section
variable {dv : Field → Val} {we re : Env} (hD : DropsFlat we re)
include hD

theorem intoReader_congr {w : Ty} {f g : Ty → Option Val} {r : Ty} (h : ∀ t, f t = g t) :
    intoReader we re w f r = intoReader we re w g r := by
  have : f = g := funext h
  rw [this]

mutual
/-- Dropping what the code can drop is dropping anything. -/
theorem resolve_drops : ∀ (d : Datum) (w r : Ty) (e : List Byte), Enc we d w e →
    resolve Datum.skippable dv we re d w r = resolve (fun _ => true) dv we re d w r
  | .null, w, r, e, he => rfl
  | .bool _, w, r, e, he => rfl
  | .int _, w, r, e, he => rfl
  | .long _, w, r, e, he => rfl
  | .float _, w, r, e, he => rfl
  | .double _, w, r, e, he => rfl
  | .bytes _, w, r, e, he => rfl
  | .string _, w, r, e, he => rfl
  | .fixed _, w, r, e, he => rfl
  | .enum _, w, r, e, he => rfl
  | .array ds, w, r, e, he => by
    obtain ⟨item, es, rfl, he, _⟩ := he
    simp only [resolve]
    refine intoReader_congr hD fun t => ?_
    cases t <;> simp only
    rw [resolveItems_drops ds item _ es he]
  | .map kds, w, r, e, he => by
    obtain ⟨item, es, rfl, he, _⟩ := he
    simp only [resolve]
    refine intoReader_congr hD fun t => ?_
    cases t <;> simp only
    rw [resolveEntries_drops kds item _ es he]
  | .union i d, w, r, e, he => by
    obtain ⟨ts, u, e', rfl, hu, he, _⟩ := he
    simp only [resolve, hu]
    split
    · rfl
    · cases r <;> simp only [resolve_drops d u _ e' he]
  | .record ds, w, r, e, he => by
    obtain ⟨q, wd, fs, rfl, hq, hk, he⟩ := he
    simp only [resolve]
    refine intoReader_congr hD fun t => ?_
    cases t <;> simp only [defAs]
    rename_i q'
    rw [hq]
    cases hr : re.find q' with
    | none => rfl
    | some rd =>
      simp only [hk]
      cases hrk : rd.kind <;> simp only
      rename_i rfs
      rw [resolveFields_drops ds fs rfs _ e he (fun w hw hn => hD q q' wd rd fs rfs hq hr hk hrk w hw hn)]
theorem resolveItems_drops : ∀ (ds : List Datum) (w r : Ty) (es : List (List Byte)), EncAll we ds w es →
    resolveItems Datum.skippable dv we re ds w r = resolveItems (fun _ => true) dv we re ds w r
  | [], w, r, es, he => rfl
  | d :: ds, w, r, es, he => by
    obtain ⟨e, es', rfl, h1, h2⟩ := he
    simp only [resolveItems, resolve_drops d w r e h1, resolveItems_drops ds w r es' h2]
theorem resolveEntries_drops : ∀ (ds : List (List Byte × Datum)) (w r : Ty) (es : List (List Byte)), EncEntries we ds w es →
    resolveEntries Datum.skippable dv we re ds w r = resolveEntries (fun _ => true) dv we re ds w r
  | [], w, r, es, he => rfl
  | (k, d) :: ds, w, r, es, he => by
    obtain ⟨e, es', rfl, h1, h2⟩ := he
    simp only [resolveEntries, resolve_drops d w r e h1, resolveEntries_drops ds w r es' h2]
theorem resolveFields_drops : ∀ (ds : List Datum) (ws rfs : List Field) (slots : List (Option Val)) (e : List Byte),
    EncFields we ds ws e → (∀ w ∈ ws, fieldByName rfs w.name = none → Flat we w.ty) →
    resolveFields Datum.skippable dv we re ds ws rfs slots = resolveFields (fun _ => true) dv we re ds ws rfs slots
  | [], ws, rfs, slots, e, he, hn => by cases ws <;> rfl
  | d :: ds, ws, rfs, slots, e, he, hn => by
    obtain ⟨f, fs', e1, e2, rfl, h1, h2, _⟩ := he
    have ih := fun slots => resolveFields_drops ds fs' rfs slots e2 h2 fun w hw => hn w (by simp [hw])
    simp only [resolveFields, resolve_drops d f.ty _ e1 h1, ih]
    cases hf : fieldByName rfs f.name with
    | none => simp only [flat_skippable d f.ty e1 h1 (hn f (by simp) hf)]
    | some x => rfl
end
end
end Verif
