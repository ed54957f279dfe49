import Verif.Gen.Drops
/-
What a datum is read as depends only on the reader's definitions that the reader's type
mentions, directly or through other definitions.
-/
namespace Verif
set_option linter.unusedSimpArgs false
set_option linter.unusedVariables false

mutual
/-- All names that the type mentions are in `S`. -/
def Ty.Mentions (S : QName → Prop) : Ty → Prop
  | .array t => t.Mentions S
  | .map t => t.Mentions S
  | .union ts => Ty.AllMention S ts
  | .ref q => S q
  | _ => True
def Ty.AllMention (S : QName → Prop) : List Ty → Prop
  | [] => True
  | t :: ts => t.Mentions S ∧ Ty.AllMention S ts
end

/-- `S` contains the names that its definitions mention, and these are the same in both. -/
structure SameOn (S : QName → Prop) (re re' : Env) : Prop where
  same : ∀ q, S q → re'.find q = re.find q
  closed : ∀ q d fs, S q → re.find q = some d → d.kind = .record fs → ∀ f ∈ fs, f.ty.Mentions S

theorem allMention_mem {S : QName → Prop} {t : Ty} : ∀ {ts : List Ty}, Ty.AllMention S ts → t ∈ ts → t.Mentions S
  | [], _, h => by simp at h
  | u :: ts, h, hm => by
    rcases List.mem_cons.1 hm with rfl | hm
    · exact h.1
    · exact allMention_mem h.2 hm

section
variable {S : QName → Prop} {re re' : Env} (hS : SameOn S re re')
include hS

mutual
theorem goName_same : ∀ t : Ty, t.Mentions S → t.goName re' = t.goName re
  | .null, _ => rfl
  | .bool, _ => rfl
  | .int, _ => rfl
  | .long, _ => rfl
  | .float, _ => rfl
  | .double, _ => rfl
  | .bytes, _ => rfl
  | .string, _ => rfl
  | .array t, h => by simp only [Ty.goName, goName_same t h]
  | .map t, h => by simp only [Ty.goName, goName_same t h]
  | .union ts, h => by simp only [Ty.goName, goNames_same ts h]
  | .ref q, h => by simp only [Ty.goName, hS.same q h]
theorem goNames_same : ∀ ts : List Ty, Ty.AllMention S ts → Ty.goNames re' ts = Ty.goNames re ts
  | [], _ => rfl
  | t :: ts, h => by simp only [Ty.goNames, goName_same t h.1, goNames_same ts h.2]
end

mutual
theorem anyBranch_same {p p' : Ty → Bool} (hp : ∀ t, t.Mentions S → p' t = p t) :
    ∀ t : Ty, t.Mentions S → anyBranch p' t = anyBranch p t
  | .union ts, h => by simp only [anyBranch]; exact anyBranches_same hp ts h
  | .null, h => hp _ h
  | .bool, h => hp _ h
  | .int, h => hp _ h
  | .long, h => hp _ h
  | .float, h => hp _ h
  | .double, h => hp _ h
  | .bytes, h => hp _ h
  | .string, h => hp _ h
  | .array t, h => hp _ h
  | .map t, h => hp _ h
  | .ref q, h => hp _ h
theorem anyBranches_same {p p' : Ty → Bool} (hp : ∀ t, t.Mentions S → p' t = p t) :
    ∀ ts : List Ty, Ty.AllMention S ts → anyBranches p' ts = anyBranches p ts
  | [], h => rfl
  | t :: ts, h => by simp only [anyBranches, anyBranch_same hp t h.1, anyBranches_same hp ts h.2]
end

mutual
theorem readable_same (we : Env) : ∀ (w r : Ty), r.Mentions S → w.readableBy we re' r = w.readableBy we re r
  | .null, r, h => rfl
  | .bool, r, h => rfl
  | .int, r, h => rfl
  | .long, r, h => rfl
  | .float, r, h => rfl
  | .double, r, h => rfl
  | .bytes, r, h => rfl
  | .string, r, h => rfl
  | .array t, r, h => by
    simp only [Ty.readableBy]
    refine anyBranch_same hS (fun u hu => ?_) r h
    cases u <;> simp only
    exact readable_same we t _ hu
  | .map t, r, h => by
    simp only [Ty.readableBy]
    refine anyBranch_same hS (fun u hu => ?_) r h
    cases u <;> simp only
    exact readable_same we t _ hu
  | .ref q, r, h => by
    simp only [Ty.readableBy]
    refine anyBranch_same hS (fun u hu => ?_) r h
    cases u <;> simp only
    rw [hS.same _ hu]
  | .union ts, r, h => by
    simp only [Ty.readableBy]
    cases r <;> simp only <;> try exact anyReadable_same we ts _ ⟨h, trivial⟩
    exact anyReadable_same we ts _ h
theorem anyReadable_same (we : Env) : ∀ (ts rs : List Ty), Ty.AllMention S rs →
    Ty.anyReadable we re' ts rs = Ty.anyReadable we re ts rs
  | [], rs, h => rfl
  | t :: ts, rs, h => by
    have : ∀ rs : List Ty, Ty.AllMention S rs → rs.any (t.readableBy we re') = rs.any (t.readableBy we re) := by
      intro rs
      induction rs with
      | nil => intro _; rfl
      | cons r rs ih => intro h; simp only [List.any_cons, readable_same we t r h.1, ih h.2]
    simp only [Ty.anyReadable, this rs h, anyReadable_same we ts rs h]
end

theorem findIdx_same {p p' : Ty → Bool} (hp : ∀ t, t.Mentions S → p' t = p t) : ∀ (k : Nat) (ts : List Ty),
    Ty.AllMention S ts → findIdx p' k ts = findIdx p k ts
  | _, [], _ => rfl
  | k, t :: ts, h => by simp only [findIdx, hp t h.1, findIdx_same hp (k + 1) ts h.2]

theorem findIdx_mentions {p : Ty → Bool} {k : Nat} {ts : List Ty} {j : Nat} {t : Ty} (h : findIdx p k ts = some (j, t))
    (hm : Ty.AllMention S ts) : t.Mentions S := by
  induction ts generalizing k with
  | nil => cases h
  | cons u ts ih =>
    simp only [findIdx] at h
    split at h
    · cases h; exact hm.1
    · exact ih h hm.2

theorem intoReader_same {we : Env} {w : Ty} {f f' : Ty → Option Val} (hf : ∀ t, t.Mentions S → f' t = f t) {r : Ty}
    (hr : r.Mentions S) : intoReader we re' w f' r = intoReader we re w f r := by
  cases r <;> simp only [intoReader] <;> try exact hf _ hr
  rename_i rs
  rw [findIdx_same hS (fun t ht => readable_same hS we w t ht) 0 rs hr]
  cases hx : findIdx (w.readableBy we re) 0 rs with
  | none => rfl
  | some x =>
    obtain ⟨j, t⟩ := x
    simp only [hf t (findIdx_mentions hS hx hr)]

theorem pickBranch_same {we : Env} {t : Ty} {rs : List Ty} (hr : Ty.AllMention S rs) :
    pickBranch we re' t rs = pickBranch we re t rs := by
  unfold pickBranch
  rw [findIdx_same hS (p := fun r => r.goName re == t.goName we) (fun r hr => by simp only [goName_same hS r hr]) 0 rs hr,
    findIdx_same hS (fun u hu => readable_same hS we t u hu) 0 rs hr]

theorem pickBranch_mentions {we : Env} {t : Ty} {rs : List Ty} {j r} (h : pickBranch we re t rs = some (j, r))
    (hr : Ty.AllMention S rs) : r.Mentions S := by
  unfold pickBranch at h
  split at h
  · cases h; exact findIdx_mentions hS ‹_› hr
  · exact findIdx_mentions hS h hr

variable (drop : Datum → Bool) (dv : Field → Val) (we : Env)

mutual
theorem resolve_same : ∀ (d : Datum) (w r : Ty), r.Mentions S →
    resolve drop dv we re' d w r = resolve drop dv we re d w r
  | .null, w, r, h => rfl
  | .bool _, w, r, h => by
    simp only [resolve]; cases w <;> simp only; exact intoReader_same hS (fun _ _ => rfl) h
  | .int _, w, r, h => by
    simp only [resolve]; cases w <;> simp only; exact intoReader_same hS (fun _ _ => rfl) h
  | .long _, w, r, h => by
    simp only [resolve]; cases w <;> simp only; exact intoReader_same hS (fun _ _ => rfl) h
  | .float _, w, r, h => by
    simp only [resolve]; cases w <;> simp only; exact intoReader_same hS (fun _ _ => rfl) h
  | .double _, w, r, h => by
    simp only [resolve]; cases w <;> simp only; exact intoReader_same hS (fun _ _ => rfl) h
  | .bytes _, w, r, h => by
    simp only [resolve]; cases w <;> simp only; exact intoReader_same hS (fun _ _ => rfl) h
  | .string _, w, r, h => by
    simp only [resolve]; cases w <;> simp only; exact intoReader_same hS (fun _ _ => rfl) h
  | .fixed _, w, r, h => by
    simp only [resolve]; cases w <;> simp only
    refine intoReader_same hS (fun t ht => ?_) h
    cases t <;> simp only [defAs]
    rw [hS.same _ ht]
  | .enum _, w, r, h => by
    simp only [resolve]; cases w <;> simp only
    refine intoReader_same hS (fun t ht => ?_) h
    cases t <;> simp only [defAs]
    rw [hS.same _ ht]
  | .array ds, w, r, h => by
    simp only [resolve]; cases w <;> simp only
    refine intoReader_same hS (fun t ht => ?_) h
    cases t <;> simp only
    rename_i wi ri
    rw [resolveItems_same ds wi ri ht]
  | .map es, w, r, h => by
    simp only [resolve]; cases w <;> simp only
    refine intoReader_same hS (fun t ht => ?_) h
    cases t <;> simp only
    rename_i wi ri
    rw [resolveEntries_same es wi ri ht]
  | .union i d, w, r, h => by
    simp only [resolve]; cases w <;> simp only
    rename_i ts
    cases ts[i]? with
    | none => rfl
    | some t =>
      simp only
      split
      · rfl
      · cases r <;> simp only <;> try (rw [readable_same hS we t _ h, resolve_same d t _ h])
        rename_i rs
        rw [pickBranch_same hS h]
        cases hx : pickBranch we re t rs with
        | none => rfl
        | some x =>
          obtain ⟨j, r'⟩ := x
          simp only [resolve_same d t r' (pickBranch_mentions hS hx h)]
  | .record ds, w, r, h => by
    simp only [resolve]; cases w <;> simp only
    refine intoReader_same hS (fun t ht => ?_) h
    cases t <;> simp only [defAs]
    rename_i q q'
    rw [hS.same _ ht]
    cases hw : we.find q with
    | none => rfl
    | some wd =>
      cases hr : re.find q' with
      | none => rfl
      | some rd =>
        simp only
        cases wd.kind with
        | record wfs =>
          cases hk : rd.kind with
          | record rfs =>
            simp only [resolveFields_same ds wfs rfs _ (fun f hf => hS.closed q' rd rfs ht hr hk f hf)]
          | _ => rfl
        | _ => rfl
theorem resolveItems_same : ∀ (ds : List Datum) (w r : Ty), r.Mentions S →
    resolveItems drop dv we re' ds w r = resolveItems drop dv we re ds w r
  | [], w, r, h => rfl
  | d :: ds, w, r, h => by simp only [resolveItems, resolve_same d w r h, resolveItems_same ds w r h]
theorem resolveEntries_same : ∀ (ds : List (List Byte × Datum)) (w r : Ty), r.Mentions S →
    resolveEntries drop dv we re' ds w r = resolveEntries drop dv we re ds w r
  | [], w, r, h => rfl
  | (k, d) :: ds, w, r, h => by simp only [resolveEntries, resolve_same d w r h, resolveEntries_same ds w r h]
theorem resolveFields_same : ∀ (ds : List Datum) (ws rfs : List Field) (slots : List (Option Val)),
    (∀ f ∈ rfs, f.ty.Mentions S) →
    resolveFields drop dv we re' ds ws rfs slots = resolveFields drop dv we re ds ws rfs slots
  | [], ws, rfs, slots, h => by cases ws <;> rfl
  | d :: ds, ws, rfs, slots, h => by
    cases ws with
    | nil => rfl
    | cons w ws =>
      simp only [resolveFields]
      cases hf : fieldByName rfs w.name with
      | none => simp only [resolveFields_same ds ws rfs slots h]
      | some x =>
        obtain ⟨j, rf⟩ := x
        have hm := h rf (List.mem_of_getElem? (fieldByName_some hf).1)
        simp only [readable_same hS we w.ty rf.ty hm, resolve_same d w.ty rf.ty hm]
        split
        · split
          · rfl
          · exact resolveFields_same ds ws rfs _ h
        · rfl
end
end
end Verif
