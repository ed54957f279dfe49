import Verif.Gen.Blocks
set_option linter.unusedSimpArgs false
set_option linter.unusedVariables false
/-
`interp` on the targets of generated code does what `parse` and `resolve` say.
-/
namespace Verif
variable {R : Type}

/-- The program piece `i` leaves a target of type `r` with the value of `p`; a null is left
to be done by the parent. -/
def ValFits (r : Ty) (p : Out (Option Val × R)) (i : Out (Bool × R × Tgt)) : Prop :=
  match p with
  | .timeout => True
  | .err _ => ∃ e, i = .err e
  | .done (none, _) => ∃ e, i = .err e
  | .done (some v, rd') => ∃ t', (i = .done (true, rd', t') ∧ v = .nil ∧ r.nullable = true) ∨
      (i = .done (false, rd', t') ∧ t'.final.val = some v)

/-- The program piece `i` leaves the target `V v` for the value `v` of `p`. -/
def Stored (V : Val → Tgt) (p : Out (Option Val × R)) (i : Out (Bool × R × Tgt)) : Prop :=
  match p with
  | .timeout => True
  | .err _ => ∃ e, i = .err e
  | .done (none, _) => ∃ e, i = .err e
  | .done (some v, rd') => i = .done (false, rd', V v)

/-- Apply a function to what was read. -/
def Out.on {α β : Type} (f : α → β) (x : Out (α × R)) : Out (β × R) :=
  match x with
  | .timeout => .timeout
  | .err e => .err e
  | .done (a, r) => .done (f a, r)

section
variable {ro : ReaderOps R} {lim : Nat} {dv : Field → Val} {we re : Env}

local notation "fo" => genOps re lim dv

/-- The parent of a child that was read into a sub-target. `V v` is the parent with the
value `v` stored. -/
theorem sub_agree {get : Tgt → Except Err Tgt} {put : Tgt → Tgt → Tgt} {nul : Int} {a : Sem R Tgt} {r : Ty} {t s : Tgt}
    {V : Val → Tgt} {p : Out (Option Val × R)} {rd : R}
    (hg : get t = .ok s) (hp : ∀ s' v, s'.val = some v → put t s' = V v)
    (hn : ∀ s', r.nullable = true → genNullField (put t s') nul = .ok (V .nil))
    (h : ValFits r p (a rd s)) :
    Stored V p (Sem.sub fo get put nul a rd t) := by
  simp only [Sem.sub, hg]
  match p, h with
  | .timeout, _ => trivial
  | .err _, ⟨e, he⟩ => simp only [he]; exact ⟨e, rfl⟩
  | .done (none, rd'), ⟨e, he⟩ => simp only [he]; exact ⟨e, rfl⟩
  | .done (some v, rd'), ⟨t', .inl ⟨he, hv, hr⟩⟩ =>
    subst hv
    simp only [he, genOps, genFinalize_eq, nullIf, if_true, hn _ hr, Stored]
  | .done (some v, rd'), ⟨t', .inr ⟨he, hv⟩⟩ =>
    simp only [he, genOps, genFinalize_eq, nullIf, hp _ _ hv]
    rfl

theorem field_agree {rfs : List Field} {slots : List (Option Val)} {i : Nat} {rf : Field} (hf : rfs[i]? = some rf)
    {a : Sem R Tgt} {p : Out (Option Val × R)} {rd : R} (h : ValFits rf.ty p (a rd (.new re rf.ty (slotAt slots i)))) :
    Stored (fun v => .record rfs (slots.set i (some v))) p (Sem.field fo i a rd (.record rfs slots)) := by
  have h0 : ¬ ((i : Int) < 0) := by omega
  refine sub_agree (V := fun v => .record rfs (slots.set i (some v))) ?_ ?_ ?_ h
  · simp only [genOps, genGet, h0, if_false, Int.toNat_natCast, hf]
  · intro s' v hv
    simp only [genOps, genPut, Int.toNat_natCast, hv]
  · intro s' hr
    simp only [genOps, genPut, genNullField, h0, if_false, Int.toNat_natCast, hf, hr, if_true, List.set_set]

theorem member_agree {rs : List Ty} {j : Nat} {r' : Ty} (hj : rs[j]? = some r') (hu : r'.isUnion = false)
    {a : Sem R Tgt} {p : Out (Option Val × R)} {rd : R} {tag : BitVec 64} {sel : Option Nat} {slots : List (Option Val)}
    (hlen : slots.length = rs.length) (h : ValFits r' p (a rd (.new re r' (slotAt slots j)))) :
    ValFits (.union rs) (p.on fun o => o.map fun v => .union (BitVec.ofInt 64 j) (some v))
      (Sem.member fo j a rd (.union rs tag sel slots)) := by
  have hlt : j < slots.length := by rw [hlen]; exact (List.getElem?_eq_some_iff.mp hj).1
  have hnull : r'.nullable = false := by cases r' <;> first | rfl | simp [Ty.isUnion] at hu
  have hneg : ¬ ((j : Int) < 0) := by omega
  have := sub_agree (lim := lim) (dv := dv) (re := re) (get := fun t => (fo).get t j) (put := fun t s => (fo).put t j s) (nul := j)
    (a := a) (t := .union rs (BitVec.ofInt 64 j) sel slots) (s := .new re r' (slotAt slots j))
    (V := fun v => .union rs (BitVec.ofInt 64 j) (some j) (slots.set j (some v)))
    (by simp only [genOps, genGet, hneg, if_false, Int.toNat_natCast, hj])
    (by intro s' v hv; simp only [genOps, genPut, Int.toNat_natCast, hv])
    (by intro s' hr; rw [hnull] at hr; simp at hr)
    h
  simp only [Sem.member, Sem.seq, Sem.act, Sem.field, genOps, genSetLong] at this ⊢
  match p, this with
  | .timeout, _ => trivial
  | .err _, ⟨e, he⟩ => simp only [he, Out.on, ValFits]; exact ⟨e, rfl⟩
  | .done (none, rd'), ⟨e, he⟩ => simp only [he, Out.on, ValFits, Option.map]; exact ⟨e, rfl⟩
  | .done (some v, rd'), he =>
    refine ⟨.union rs (BitVec.ofInt 64 j) (some j) (slots.set j (some v)), .inr ⟨?_, ?_⟩⟩
    case refine_2 =>
      simp only [Tgt.final, Tgt.val, slotAt, List.getElem?_set_self hlt]
      rfl
    simp only [Stored] at he
    rw [he]
    rfl

theorem item_agree {ri : Ty} {a : Sem R Tgt} {p : Out (Datum × R)} {f : Datum → Option Val} {rd : R} {bs : List Val}
    (h : ValFits ri (p.on f) (a rd (.new re ri none))) :
    StepFits f (fun bs => .array ri (bs.map some)) bs p (itemSem fo a rd (.array ri (bs.map some))) := by
  have := sub_agree (lim := lim) (dv := dv) (re := re) (get := (fo).appendArray) (put := (fo).putArray) (nul := -1)
    (a := a) (t := .array ri (bs.map some)) (s := .new re ri none) (V := fun v => .array ri ((bs ++ [v]).map some))
    rfl
    (by intro s' v hv; simp only [genOps, genPutArray, hv, List.map_append, List.map_cons, List.map_nil])
    (by
      intro s' hr
      simp only [genOps, genPutArray, genNullField]
      rw [if_pos ⟨hr, by simp⟩]
      simp) h
  unfold itemSem
  match p, this with
  | .timeout, _ => trivial
  | .err _, ⟨e, he⟩ => exact ⟨e, he⟩
  | .done (d, rd'), h =>
    simp only [Out.on] at h
    simp only [StepFits]
    cases hf : f d with
    | none => rw [hf] at h; exact h
    | some v => rw [hf] at h; exact ⟨_, h⟩

theorem entry_agree {ri : Ty} {a : Sem R Tgt} {p : R → Out (Datum × R)} {f : Datum → Option Val} {rd : R}
    {bs : List (List Byte × Val)} {cur : Option (List (List Byte × Val))}
    (h : ∀ rd, ValFits ri ((p rd).on f) (a rd (.new re ri none))) :
    StepFits (fun e => (f e.2).map fun v => (e.1, v)) (fun bs => .map ri true (bs.map fun e => (e.1, some e.2)) cur) bs
      (parseEntry ro p rd) (entrySem ro fo a rd (.map ri true (bs.map fun e => (e.1, some e.2)) cur)) := by
  unfold parseEntry entrySem Sem.read
  cases hk : readString ro rd with
  | error e => exact ⟨e, rfl⟩
  | ok x =>
    obtain ⟨k, r1⟩ := x
    simp only
    have := sub_agree (lim := lim) (dv := dv) (re := re) (get := fun t => (fo).appendMap t k)
      (put := fun t s => (fo).putMap t k s) (nul := -1)
      (a := a) (t := .map ri true (bs.map fun e => (e.1, some e.2)) cur) (s := .new re ri none)
      (V := fun v => .map ri true ((bs ++ [(k, v)]).map fun e => (e.1, some e.2)) cur)
      rfl
      (by intro s' v hv; simp only [genOps, genPutMap, hv, List.map_append, List.map_cons, List.map_nil])
      (by
        intro s' hr
        simp only [genOps, genPutMap, genNullField, hr, if_true]
        simp) (h r1)
    cases hp : p r1 with
    | timeout => trivial
    | err e => rw [hp] at this; exact this
    | done y =>
      obtain ⟨d, rd'⟩ := y
      rw [hp] at this
      simp only [Out.on] at this
      simp only [Out.bind, StepFits]
      cases hf : f d with
      | none => rw [hf] at this; exact this
      | some v => rw [hf] at this; exact ⟨_, this⟩

theorem resolveItems_eq (drop : Datum → Bool) (w r : Ty) : ∀ ds, resolveItems drop dv we re ds w r =
    stepAll (fun d => resolve drop dv we re d w r) ds := by
  intro ds
  induction ds with
  | nil => simp [resolveItems, stepAll]
  | cons d ds ih => 
    simp only [resolveItems, stepAll, ih]
    cases resolve drop dv we re d w r <;> rfl

theorem resolveEntries_eq (drop : Datum → Bool) (w r : Ty) : ∀ es, resolveEntries drop dv we re es w r =
    stepAll (fun e => (resolve drop dv we re e.2 w r).map fun v => (e.1, v)) es := by
  intro es
  induction es with
  | nil => simp [resolveEntries, stepAll]
  | cons e es ih =>
    obtain ⟨k, d⟩ := e
    simp only [resolveEntries, stepAll, ih]
    cases resolve drop dv we re d w r <;> rfl

/-! ### Leaves -/

theorem prim_agree {α : Type} {rdr : R → Except Err (α × R)} {set : Tgt → α → Except Err Tgt} {g : α → Datum}
    {res : Datum → Option Val} {r : Ty} {t : Tgt} {rd : R}
    (h : ∀ a, match res (g a) with
      | some v => ∃ t', set t a = .ok t' ∧ t'.final.val = some v
      | none => ∃ e, set t a = .error e) :
    ValFits r ((lift g (rdr rd)).on res) (Sem.prim rdr set (some r) rd t) := by
  simp only [Sem.prim, Sem.read, Option.isSome, if_true]
  cases rdr rd with
  | error e => exact ⟨e, rfl⟩
  | ok x =>
    obtain ⟨a, rd'⟩ := x
    have := h a
    simp only [lift, Out.on, Sem.act]
    cases hr : res (g a) with
    | none =>
      rw [hr] at this
      obtain ⟨e, he⟩ := this
      simp only [he]
      exact ⟨e, rfl⟩
    | some v =>
      rw [hr] at this
      obtain ⟨t', he, hv⟩ := this
      simp only [he]
      exact ⟨t', .inr ⟨rfl, hv⟩⟩

/-- How a target for a reference looks. -/
theorem new_ref (q : QName) (v0 : Option Val) : Tgt.new re (.ref q) v0 = .bad ∨
    (∃ d fs, re.find q = some d ∧ d.kind = .record fs ∧ Tgt.new re (.ref q) v0 = .record fs (List.replicate fs.length none)) ∨
    (∃ d ss dd, re.find q = some d ∧ d.kind = .enum ss dd ∧ Tgt.new re (.ref q) v0 = .leaf .enum v0) ∨
    (∃ d n, re.find q = some d ∧ d.kind = .fixed n ∧ Tgt.new re (.ref q) v0 = .leaf (.fixed n.toNat) v0) := by
  simp only [Tgt.new]
  cases hf : re.find q with
  | none => exact .inl rfl
  | some d =>
    cases hd : d.kind with
    | record fs => exact .inr (.inl ⟨d, fs, rfl, hd, by simp [hd]⟩)
    | enum ss dd => exact .inr (.inr (.inl ⟨d, ss, dd, rfl, hd, by simp [hd]⟩))
    | fixed n => exact .inr (.inr (.inr ⟨d, n, rfl, hd, by simp [hd]⟩))

theorem not_comp_ref (hp : PlainNames re) {w : Ty} {q : QName} {d : Def} (hd : re.find q = some d)
    (hnr : ∀ fs, d.kind ≠ .record fs)
    (hw : w = .bool ∨ w = .int ∨ w = .long ∨ w = .float ∨ w = .double ∨ w = .bytes ∨ w = .string) :
    ¬ Comp we re w (.ref q) := by
  have hn := hp q d hd
  rintro (h | h | ⟨q', d', fs, h, h', h''⟩ | h | h)
  · rcases hw with rfl | rfl | rfl | rfl | rfl | rfl | rfl <;>
      simp [Ty.readableBy, anyBranch, Ty.readsBool, Ty.readsInt, Ty.readsLong, Ty.readsFloat, Ty.readsDouble, Ty.readsString] at h
  · apply hn
    have : Ty.goName re (.ref q) = d.goName := by simp only [Ty.goName, hd]
    rw [← this, ← h]
    rcases hw with rfl | rfl | rfl | rfl | rfl | rfl | rfl <;> simp [Ty.goName, builtinNames]
  · cases h
    rw [hd] at h'; cases h'
    exact hnr _ h''
  · rcases hw with rfl | rfl | rfl | rfl | rfl | rfl | rfl <;> simp [Ty.isUnion] at h
  · simp [Ty.isUnion] at h

theorem bool_agree {r : Ty} (hu : r.isUnion = false) (v0 : Option Val) (b : Bool) :
    match boolAs b r with
    | some v => ∃ t', genSetBoolean (.new re r v0) b = .ok t' ∧ t'.final.val = some v
    | none => ∃ e, genSetBoolean (.new re r v0) b = .error e := by
  cases r with
  | ref q =>
    rcases new_ref (re := re) q v0 with h | ⟨d, fs, h1, h2, h⟩ | ⟨d, ss, dd, h1, h2, h⟩ | ⟨d, n, h1, h2, h⟩ <;>
      (rw [h]; exact ⟨_, rfl⟩)
  | bool => exact ⟨_, rfl, rfl⟩
  | _ => first | exact ⟨_, rfl⟩ | simp [Ty.isUnion] at hu

theorem int_agree (hp : PlainNames re) {r : Ty} (hu : r.isUnion = false) (hc : Comp we re .int r) (v0 : Option Val) (b : BitVec 32) :
    match intAs b r with
    | some v => ∃ t', genSetInt (.new re r v0) b = .ok t' ∧ t'.final.val = some v
    | none => ∃ e, genSetInt (.new re r v0) b = .error e := by
  cases r with
  | ref q =>
    rcases new_ref (re := re) q v0 with h | ⟨d, fs, h1, h2, h⟩ | ⟨d, ss, dd, h1, h2, h⟩ | ⟨d, n, h1, h2, h⟩
    · rw [h]; exact ⟨_, rfl⟩
    · rw [h]; exact ⟨_, rfl⟩
    · exact absurd hc (not_comp_ref hp h1 (by simp [h2]) (by simp))
    · rw [h]; exact ⟨_, rfl⟩
  | int => exact ⟨_, rfl, rfl⟩
  | long => exact ⟨_, rfl, rfl⟩
  | float => exact ⟨_, rfl, rfl⟩
  | double => exact ⟨_, rfl, rfl⟩
  | _ => first | exact ⟨_, rfl⟩ | simp [Ty.isUnion] at hu

theorem long_agree {r : Ty} (hu : r.isUnion = false) (v0 : Option Val) (b : BitVec 64) :
    match longAs b r with
    | some v => ∃ t', genSetLong (.new re r v0) b = .ok t' ∧ t'.final.val = some v
    | none => ∃ e, genSetLong (.new re r v0) b = .error e := by
  cases r with
  | ref q =>
    rcases new_ref (re := re) q v0 with h | ⟨d, fs, h1, h2, h⟩ | ⟨d, ss, dd, h1, h2, h⟩ | ⟨d, n, h1, h2, h⟩ <;>
      (rw [h]; exact ⟨_, rfl⟩)
  | long => exact ⟨_, rfl, rfl⟩
  | float => exact ⟨_, rfl, rfl⟩
  | double => exact ⟨_, rfl, rfl⟩
  | _ => first | exact ⟨_, rfl⟩ | simp [Ty.isUnion] at hu

theorem float_agree {r : Ty} (hu : r.isUnion = false) (v0 : Option Val) (b : BitVec 32) :
    match floatAs b r with
    | some v => ∃ t', genSetFloat (.new re r v0) b = .ok t' ∧ t'.final.val = some v
    | none => ∃ e, genSetFloat (.new re r v0) b = .error e := by
  cases r with
  | ref q =>
    rcases new_ref (re := re) q v0 with h | ⟨d, fs, h1, h2, h⟩ | ⟨d, ss, dd, h1, h2, h⟩ | ⟨d, n, h1, h2, h⟩ <;>
      (rw [h]; exact ⟨_, rfl⟩)
  | float => exact ⟨_, rfl, rfl⟩
  | double => exact ⟨_, rfl, rfl⟩
  | _ => first | exact ⟨_, rfl⟩ | simp [Ty.isUnion] at hu

theorem double_agree {r : Ty} (hu : r.isUnion = false) (v0 : Option Val) (b : BitVec 64) :
    match doubleAs b r with
    | some v => ∃ t', genSetDouble (.new re r v0) b = .ok t' ∧ t'.final.val = some v
    | none => ∃ e, genSetDouble (.new re r v0) b = .error e := by
  cases r with
  | ref q =>
    rcases new_ref (re := re) q v0 with h | ⟨d, fs, h1, h2, h⟩ | ⟨d, ss, dd, h1, h2, h⟩ | ⟨d, n, h1, h2, h⟩ <;>
      (rw [h]; exact ⟨_, rfl⟩)
  | double => exact ⟨_, rfl, rfl⟩
  | _ => first | exact ⟨_, rfl⟩ | simp [Ty.isUnion] at hu

theorem bytes_agree (hp : PlainNames re) {r : Ty} (hu : r.isUnion = false) (hc : Comp we re .bytes r) (v0 : Option Val) (b : List Byte) :
    match octetsAs b r with
    | some v => ∃ t', genSetBytes (.new re r v0) b = .ok t' ∧ t'.final.val = some v
    | none => ∃ e, genSetBytes (.new re r v0) b = .error e := by
  cases r with
  | ref q =>
    rcases new_ref (re := re) q v0 with h | ⟨d, fs, h1, h2, h⟩ | ⟨d, ss, dd, h1, h2, h⟩ | ⟨d, n, h1, h2, h⟩
    · rw [h]; exact ⟨_, rfl⟩
    · rw [h]; exact ⟨_, rfl⟩
    · rw [h]; exact ⟨_, rfl⟩
    · exact absurd hc (not_comp_ref hp h1 (by simp [h2]) (by simp))
  | bytes => exact ⟨_, rfl, rfl⟩
  | string => exact ⟨_, rfl, rfl⟩
  | _ => first | exact ⟨_, rfl⟩ | simp [Ty.isUnion] at hu

theorem string_agree {r : Ty} (hu : r.isUnion = false) (v0 : Option Val) (b : List Byte) :
    match octetsAs b r with
    | some v => ∃ t', genSetString (.new re r v0) b = .ok t' ∧ t'.final.val = some v
    | none => ∃ e, genSetString (.new re r v0) b = .error e := by
  cases r with
  | ref q =>
    rcases new_ref (re := re) q v0 with h | ⟨d, fs, h1, h2, h⟩ | ⟨d, ss, dd, h1, h2, h⟩ | ⟨d, n, h1, h2, h⟩ <;>
      (rw [h]; exact ⟨_, rfl⟩)
  | bytes => exact ⟨_, rfl, rfl⟩
  | string => exact ⟨_, rfl, rfl⟩
  | _ => first | exact ⟨_, rfl⟩ | simp [Ty.isUnion] at hu

/-! ### Fields -/

theorem resolveFields_slots (drop : Datum → Bool) {rfs : List Field} : ∀ {wfs : List Field} {ds : List Datum} {slots s' : List (Option Val)},
    resolveFields drop dv we re ds wfs rfs slots = some s' →
    s'.length = slots.length ∧ ∀ i, s'[i]? = some none ↔ slots[i]? = some none ∧
      ∀ w ∈ wfs, ∀ rf, fieldByName rfs w.name ≠ some (i, rf) := by
  intro wfs
  induction wfs with
  | nil =>
    intro ds slots s' h
    cases ds with
    | nil => simp only [resolveFields, Option.some.injEq] at h; subst h; simp
    | cons d ds => simp [resolveFields] at h
  | cons w wfs ih =>
    intro ds slots s' h
    cases ds with
    | nil => simp [resolveFields] at h
    | cons d ds =>
      unfold resolveFields at h
      simp only at h
      split at h
      · rename_i hf
        split at h
        · obtain ⟨h1, h2⟩ := ih h
          refine ⟨h1, fun i => ?_⟩
          rw [h2]
          simp [hf]
        · simp at h
      · rename_i j rf hf
        split at h
        · split at h
          · simp at h
          · rename_i v hv
            obtain ⟨h1, h2⟩ := ih h
            refine ⟨by simpa using h1, fun i => ?_⟩
            rw [h2]
            simp only [List.mem_cons, forall_eq_or_imp, hf, List.getElem?_set]
            by_cases hij : j = i
            · subst hij
              simp only [if_true]
              constructor
              · rintro ⟨h3, _⟩
                split at h3 <;> simp at h3
              · rintro ⟨_, h3, _⟩
                exact absurd rfl (h3 rf)
            · simp only [if_neg hij]
              constructor
              · rintro ⟨h3, h4⟩
                exact ⟨h3, fun rf' he => hij (by simp at he; exact he.1), h4⟩
              · rintro ⟨h3, _, h4⟩
                exact ⟨h3, h4⟩
        · simp at h

end
end Verif
