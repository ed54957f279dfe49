import Verif.Props.Small
import Verif.Compiler.Nulls
import Verif.Spec.Path
/-
Checks for the conditions on concrete schemas and data, for use in examples.
-/
namespace Verif.Props
open Verif
set_option linter.unusedSimpArgs false
set_option linter.unusedVariables false

def DefKind.fields : DefKind → List Field
  | .record fs => fs
  | _ => []
def DefKind.isRecord : DefKind → Bool
  | .record _ => true
  | _ => false

def tidyB (env : Env) : Bool := env.all fun x => (DefKind.fields x.2.kind).all fun f => f.ty.tidy
def namesB (env : Env) : Bool := decide (env.map (·.2.name)).Nodup
def sizesB (env : Env) : Bool := env.all fun x => match x.2.kind with
  | .fixed n => decide (0 ≤ n)
  | _ => true
def oneB (we re : Env) : Bool := we.all fun d => re.all fun r1 => re.all fun r2 =>
  !(DefKind.isRecord d.2.kind && d.2.readableBy r1.2 && d.2.readableBy r2.2) || r1.2.name == r2.2.name
def topB (s : Schema) : Bool := match s.root with
  | .union _ => true
  | .ref q => match s.env.find q with
    | some d => DefKind.isRecord d.kind
    | none => false
  | _ => false

def plainB (w r : Schema) : Bool :=
  namesB w.env && namesB r.env && sizesB w.env && tidyB w.env && tidyB r.env && w.root.tidy && r.root.tidy &&
  decide (w.env.map (·.2.goName)).Nodup && oneB w.env r.env &&
  r.env.all (fun x => decide (x.2.goName ∉ builtinNames)) &&
  r.env.all (fun x => decide ((DefKind.fields x.2.kind).map (·.name)).Nodup) && topB r

/-- Null occurs in unions only. -/
def nullsB (s : Schema) : Bool :=
  (s.env.all fun x => (DefKind.fields x.2.kind).all fun f => f.ty.nullInUnions) && s.root.nullInUnions

def suitedB (w r : Schema) : Bool := plainB w r && nullsB w && nullsB r

theorem tidy_of {env : Env} (h : tidyB env = true) : TidyFields env := by
  intro q d fs f hq hk hf
  simp only [tidyB, List.all_eq_true] at h
  have := h _ (Env.find_mem hq) f
  rw [hk] at this
  exact this hf

theorem nodup_map_inj {α β : Type} {f : α → β} {l : List α} (h : (l.map f).Nodup) {a b : α} (ha : a ∈ l) (hb : b ∈ l)
    (he : f a = f b) : a = b := by
  induction l with
  | nil => cases ha
  | cons x l ih =>
    simp only [List.map_cons, List.nodup_cons, List.mem_map] at h
    rcases List.mem_cons.1 ha with rfl | ha'
    · rcases List.mem_cons.1 hb with rfl | hb'
      · rfl
      · exact absurd ⟨b, hb', he.symm⟩ h.1
    · rcases List.mem_cons.1 hb with rfl | hb'
      · exact absurd ⟨a, ha', he⟩ h.1
      · exact ih h.2 ha' hb'

theorem names_of {env : Env} (h : namesB env = true) : NamesOK env := by
  intro q q' d d' hq hq' he
  have := nodup_map_inj (of_decide_eq_true h) (Env.find_mem hq) (Env.find_mem hq') he
  exact congrArg Prod.snd this

theorem suited_plain {w r : Schema} (h : plainB w r = true) (hn : NullsAgree w.env r.env w.root r.root) : Suited w r := by
  simp only [plainB, Bool.and_eq_true] at h
  obtain ⟨⟨⟨⟨⟨⟨⟨⟨⟨⟨⟨h1, h2⟩, h3⟩, h4⟩, h5⟩, h6⟩, h7⟩, h8⟩, h9⟩, h10⟩, h11⟩, h12⟩ := h
  refine ⟨⟨names_of h1, names_of h2, ?_, tidy_of h4, tidy_of h5, h6, h7, hn, ?_, ?_⟩, ?_, ?_, ?_⟩
  · intro q d n hq hk
    have := (List.all_eq_true.1 h3) _ (Env.find_mem hq)
    simp only [hk] at this
    simpa using this
  · intro q q' d d' fs fs' hq hq' _ _ he
    have := nodup_map_inj (of_decide_eq_true h8) (Env.find_mem hq) (Env.find_mem hq') he
    have := congrArg Prod.snd this
    exact congrArg Def.name this
  · intro q d q1 q2 r1 r2 fs fs1 fs2 hq hq1 hq2 hk _ _ hr1 hr2
    have := List.all_eq_true.1 (List.all_eq_true.1 (List.all_eq_true.1 h9 _ (Env.find_mem hq)) _ (Env.find_mem hq1)) _
      (Env.find_mem hq2)
    simpa [hk, DefKind.isRecord, hr1, hr2] using this
  · intro q d hq
    have := List.all_eq_true.1 h10 _ (Env.find_mem hq)
    simpa using this
  · intro q d fs hq hk
    have := List.all_eq_true.1 h11 _ (Env.find_mem hq)
    rw [hk] at this
    exact of_decide_eq_true this
  · unfold topB at h12
    split at h12
    · rename_i hr; right; rw [hr]; rfl
    · rename_i q hr
      split at h12
      · rename_i d hd
        left
        cases hk : d.kind with
        | record fs => exact ⟨q, d, fs, hr, hd, hk⟩
        | _ => rw [hk] at h12; cases h12
      · cases h12
    · cases h12

theorem nulls_of {w r : Schema} (hw : nullsB w = true) (hr : nullsB r = true) (tw : TidyFields w.env) (tr : TidyFields r.env)
    (rw : w.root.tidy = true) (rr : r.root.tidy = true) : NullsAgree w.env r.env w.root r.root := by
  simp only [nullsB, Bool.and_eq_true] at hw hr
  have key : ∀ s : Schema, (s.env.all fun x => (DefKind.fields x.2.kind).all fun f => f.ty.nullInUnions) = true →
      FieldsNullInUnions s.env := by
    intro s h q d fs f hq hk hf
    have := List.all_eq_true.1 h _ (Env.find_mem hq)
    simp only [hk] at this
    exact List.all_eq_true.1 this f hf
  exact nullsAgree_inUnions (key w hw.1) (key r hr.1) hw.2 (.inl hr.2) tw rw tr rr

theorem suited_of {w r : Schema} (h : suitedB w r = true) : Suited w r := by
  simp only [suitedB, Bool.and_eq_true] at h
  refine suited_plain h.1.1 ?_
  have hp := h.1.1
  simp only [plainB, Bool.and_eq_true] at hp
  obtain ⟨⟨⟨⟨⟨⟨⟨⟨⟨⟨⟨_, _⟩, _⟩, h4⟩, h5⟩, h6⟩, h7⟩, _⟩, _⟩, _⟩, _⟩, _⟩ := hp
  exact nulls_of h.1.2 h.2 (tidy_of h4) (tidy_of h5) h6 h7

/-- One encoding: a single block. -/
def blockOf (es : List (List Byte)) : List Byte :=
  if es.isEmpty then encLong 0 else encLong es.length ++ es.flatten ++ encLong 0

theorem blockOf_blocks (es : List (List Byte)) : Blocks es (blockOf es) := by
  unfold blockOf
  cases es with
  | nil => exact .done
  | cons e es =>
    have := Blocks.counted (e :: es) [] (encLong 0) (by simp) .done
    rwa [List.append_nil] at this

mutual
def encode (env : Env) : Datum → Ty → Option (List Byte)
  | .null, t => match t with
    | .null => some []
    | _ => none
  | .bool b, t => match t with
    | .bool => some (octets [if b then 1 else 0])
    | _ => none
  | .int v, t => match t with
    | .int => some (encLong v.toInt)
    | _ => none
  | .long v, t => match t with
    | .long => some (encLong v.toInt)
    | _ => none
  | .float v, t => match t with
    | .float => some (octets (Spec.littleEndian 4 v.toNat))
    | _ => none
  | .double v, t => match t with
    | .double => some (octets (Spec.littleEndian 8 v.toNat))
    | _ => none
  | .bytes x, t => match t with
    | .bytes => some (encLong x.length ++ x)
    | _ => none
  | .string x, t => match t with
    | .string => some (encLong x.length ++ x)
    | _ => none
  | .fixed x, t => match t with
    | .ref q => match env.find q with
      | some d => match d.kind with
        | .fixed n => if n = x.length then some x else none
        | _ => none
      | none => none
    | _ => none
  | .enum i, t => match t with
    | .ref q => match env.find q with
      | some d => match d.kind with
        | .enum ss _ => if 0 ≤ i ∧ i < ss.length then some (encLong i) else none
        | _ => none
      | none => none
    | _ => none
  | .array ds, t => match t with
    | .array item => (encodeAll env ds item).map blockOf
    | _ => none
  | .map ds, t => match t with
    | .map item => (encodeEntries env ds item).map blockOf
    | _ => none
  | .union i d, t => match t with
    | .union ts => match ts[i]? with
      | some u => (encode env d u).map (encLong i ++ ·)
      | none => none
    | _ => none
  | .record ds, t => match t with
    | .ref q => match env.find q with
      | some d => match d.kind with
        | .record fs => encodeFields env ds fs
        | _ => none
      | none => none
    | _ => none
def encodeAll (env : Env) : List Datum → Ty → Option (List (List Byte))
  | [], _ => some []
  | d :: ds, t => match encode env d t, encodeAll env ds t with
    | some e, some es => some (e :: es)
    | _, _ => none
def encodeEntries (env : Env) : List (List Byte × Datum) → Ty → Option (List (List Byte))
  | [], _ => some []
  | (k, d) :: ds, t => match encode env d t, encodeEntries env ds t with
    | some e, some es => some ((encLong k.length ++ k ++ e) :: es)
    | _, _ => none
def encodeFields (env : Env) : List Datum → List Field → Option (List Byte)
  | [], fs => match fs with
    | [] => some []
    | _ => none
  | d :: ds, fs => match fs with
    | f :: fs => match encode env d f.ty, encodeFields env ds fs with
      | some e, some es => some (e ++ es)
      | _, _ => none
    | [] => none
end

mutual
theorem encode_enc {env : Env} : ∀ {d : Datum} {t : Ty} {e : List Byte}, encode env d t = some e → Enc env d t e
  | .null, t, e, h => by
    simp only [encode] at h
    cases t <;> cases h
    exact ⟨rfl, rfl⟩
  | .bool _, t, e, h => by
    simp only [encode] at h
    cases t <;> cases h
    exact ⟨rfl, rfl⟩
  | .int _, t, e, h => by
    simp only [encode] at h
    cases t <;> cases h
    exact ⟨rfl, rfl⟩
  | .long _, t, e, h => by
    simp only [encode] at h
    cases t <;> cases h
    exact ⟨rfl, rfl⟩
  | .float _, t, e, h => by
    simp only [encode] at h
    cases t <;> cases h
    exact ⟨rfl, rfl⟩
  | .double _, t, e, h => by
    simp only [encode] at h
    cases t <;> cases h
    exact ⟨rfl, rfl⟩
  | .bytes _, t, e, h => by
    simp only [encode] at h
    cases t <;> cases h
    exact ⟨rfl, rfl⟩
  | .string _, t, e, h => by
    simp only [encode] at h
    cases t <;> cases h
    exact ⟨rfl, rfl⟩
  | .fixed _, t, e, h => by
    simp only [encode] at h
    split at h
    · rename_i q
      split at h
      · rename_i d hd
        split at h
        · rename_i n hk
          split at h
          · rename_i hn
            cases h; exact ⟨q, d, rfl, hd, by rw [hk, hn], rfl⟩
          · cases h
        · cases h
      · cases h
    · cases h
  | .enum _, t, e, h => by
    simp only [encode] at h
    split at h
    · rename_i q
      split at h
      · rename_i d hd
        split at h
        · rename_i ss df hk
          split at h
          · rename_i hn
            cases h; exact ⟨q, d, ss, df, rfl, hd, hk, hn.1, hn.2, rfl⟩
          · cases h
        · cases h
      · cases h
    · cases h
  | .array ds, t, e, h => by
    simp only [encode] at h
    split at h
    · rename_i item
      rw [Option.map_eq_some_iff] at h
      obtain ⟨es, h1, rfl⟩ := h
      exact ⟨item, es, rfl, encodeAll_enc h1, blockOf_blocks es⟩
    · cases h
  | .map ds, t, e, h => by
    simp only [encode] at h
    split at h
    · rename_i item
      rw [Option.map_eq_some_iff] at h
      obtain ⟨es, h1, rfl⟩ := h
      exact ⟨item, es, rfl, encodeEntries_enc h1, blockOf_blocks es⟩
    · cases h
  | .union i d, t, e, h => by
    simp only [encode] at h
    split at h
    · rename_i ts
      split at h
      · rename_i u hu
        rw [Option.map_eq_some_iff] at h
        obtain ⟨e', h1, rfl⟩ := h
        exact ⟨ts, u, e', rfl, hu, encode_enc h1, rfl⟩
      · cases h
    · cases h
  | .record ds, t, e, h => by
    simp only [encode] at h
    split at h
    · rename_i q
      split at h
      · rename_i d hd
        split at h
        · rename_i fs hk
          exact ⟨q, d, fs, rfl, hd, hk, encodeFields_enc h⟩
        · cases h
      · cases h
    · cases h
theorem encodeAll_enc {env : Env} : ∀ {ds : List Datum} {t : Ty} {es : List (List Byte)},
    encodeAll env ds t = some es → EncAll env ds t es
  | [], t, es, h => by cases h; rfl
  | d :: ds, t, es, h => by
    simp only [encodeAll] at h
    split at h
    · rename_i e es' h1 h2
      cases h; exact ⟨e, es', rfl, encode_enc h1, encodeAll_enc h2⟩
    · cases h
theorem encodeEntries_enc {env : Env} : ∀ {ds : List (List Byte × Datum)} {t : Ty} {es : List (List Byte)},
    encodeEntries env ds t = some es → EncEntries env ds t es
  | [], t, es, h => by cases h; rfl
  | (k, d) :: ds, t, es, h => by
    simp only [encodeEntries] at h
    split at h
    · rename_i e es' h1 h2
      cases h; exact ⟨e, es', rfl, encode_enc h1, encodeEntries_enc h2⟩
    · cases h
theorem encodeFields_enc {env : Env} : ∀ {ds : List Datum} {fs : List Field} {e : List Byte},
    encodeFields env ds fs = some e → EncFields env ds fs e
  | [], fs, e, h => by
    simp only [encodeFields] at h
    cases fs <;> cases h
    exact ⟨rfl, rfl⟩
  | d :: ds, fs, e, h => by
    simp only [encodeFields] at h
    split at h
    · rename_i f fs'
      split at h
      · rename_i e1 e2 h1 h2
        cases h; exact ⟨f, fs', e1, e2, rfl, encode_enc h1, encodeFields_enc h2, rfl⟩
      · cases h
    · cases h
end

def answersB (f : Field) (n : Str) : Bool := f.name == n || f.aliases.contains n

theorem answers_iff {f : Field} {n : Str} : answersB f n = true ↔ f.answers n := by
  simp [answersB, Field.answers]

def matchedB (wfs rfs : List Field) (i j : Nat) : Bool :=
  match wfs[i]?, rfs[j]? with
  | some wf, some rf => answersB rf wf.name &&
    (List.range wfs.length).all (fun i' => match wfs[i']? with
      | some wf' => !answersB rf wf'.name || i' == i
      | none => true) &&
    (List.range rfs.length).all (fun j' => match rfs[j']? with
      | some rf' => !answersB rf' wf.name || j' == j
      | none => true)
  | _, _ => false

theorem matched_of {wfs rfs : List Field} {i j : Nat} {wf rf : Field} (hw : wfs[i]? = some wf) (hr : rfs[j]? = some rf)
    (h : matchedB wfs rfs i j = true) : Matched wfs rfs i j wf rf := by
  unfold matchedB at h
  rw [hw, hr] at h
  simp only [Bool.and_eq_true, List.all_eq_true, List.mem_range] at h
  obtain ⟨⟨h1, h2⟩, h3⟩ := h
  refine ⟨hw, hr, answers_iff.1 h1, fun i' wf' hi ha => ?_, fun j' rf' hj ha => ?_⟩
  · have := h2 i' (List.getElem?_eq_some_iff.1 hi).1
    rw [hi] at this
    simpa [answers_iff.2 ha] using this
  · have := h3 j' (List.getElem?_eq_some_iff.1 hj).1
    rw [hj] at this
    simpa [answers_iff.2 ha] using this

mutual
def withinB (lim : Nat) : Datum → Bool
  | .bytes x => x.length ≤ 2147483647
  | .string x => x.length ≤ 2147483647
  | .enum i => i < 2 ^ 63
  | .array ds => ds.length ≤ lim && allWithinB lim ds
  | .map kds => kds.length ≤ lim && entriesWithinB lim kds
  | .union i d => i < 2 ^ 63 && withinB lim d
  | .record ds => allWithinB lim ds
  | _ => true
def allWithinB (lim : Nat) : List Datum → Bool
  | [] => true
  | d :: ds => withinB lim d && allWithinB lim ds
def entriesWithinB (lim : Nat) : List (List Byte × Datum) → Bool
  | [] => true
  | (k, d) :: kds => k.length ≤ 2147483647 && (withinB lim d && entriesWithinB lim kds)
end

mutual
theorem within_of {lim : Nat} : ∀ {d : Datum}, withinB lim d = true → d.within lim
  | .bytes x, h => by simp only [withinB] at h; simp only [Datum.within]; exact of_decide_eq_true h
  | .string x, h => by simp only [withinB] at h; simp only [Datum.within]; exact of_decide_eq_true h
  | .enum i, h => by simp only [withinB] at h; simp only [Datum.within]; exact of_decide_eq_true h
  | .array ds, h => by
    simp only [withinB, Bool.and_eq_true] at h
    exact ⟨of_decide_eq_true h.1, allWithin_of h.2⟩
  | .map kds, h => by
    simp only [withinB, Bool.and_eq_true] at h
    exact ⟨of_decide_eq_true h.1, entriesWithin_of h.2⟩
  | .union i d, h => by
    simp only [withinB, Bool.and_eq_true] at h
    exact ⟨of_decide_eq_true h.1, within_of h.2⟩
  | .record ds, h => allWithin_of (ds := ds) h
  | .null, _ => trivial
  | .bool _, _ => trivial
  | .int _, _ => trivial
  | .long _, _ => trivial
  | .float _, _ => trivial
  | .double _, _ => trivial
  | .fixed _, _ => trivial
theorem allWithin_of {lim : Nat} : ∀ {ds : List Datum}, allWithinB lim ds = true → Datum.allWithin lim ds
  | [], _ => trivial
  | d :: ds, h => by
    simp only [allWithinB, Bool.and_eq_true] at h
    exact ⟨within_of h.1, allWithin_of h.2⟩
theorem entriesWithin_of {lim : Nat} : ∀ {ds : List (List Byte × Datum)}, entriesWithinB lim ds = true →
    Datum.entriesWithin lim ds
  | [], _ => trivial
  | (k, d) :: ds, h => by
    simp only [entriesWithinB, Bool.and_eq_true] at h
    exact ⟨of_decide_eq_true h.1, within_of h.2.1, entriesWithin_of h.2.2⟩
end

end Verif.Props
