import Verif.Compiler.WF
/-
`compileType` ends: an explicit bound on the recursion depth, and monotonicity in the fuel.
-/
set_option linter.unusedSimpArgs false
set_option linter.unusedVariables false
namespace Verif

mutual
/-- Number of nodes of a type. -/
def Ty.size : Ty → Nat
  | .array t => t.size + 1
  | .map t => t.size + 1
  | .union ts => Ty.sizes ts + 1
  | _ => 1
def Ty.sizes : List Ty → Nat
  | [] => 0
  | t :: ts => t.size + Ty.sizes ts
end

def Ty.osize : Option Ty → Nat
  | none => 0
  | some t => t.size

theorem size_mem {t : Ty} : ∀ {ts : List Ty}, t ∈ ts → t.size ≤ Ty.sizes ts := by
  intro ts
  induction ts with
  | nil => intro h; simp at h
  | cons u ts ih =>
    intro h
    simp only [Ty.sizes]
    rcases List.mem_cons.1 h with h | h
    · subst h; omega
    · have := ih h; omega

theorem findIdx_mem {p : Ty → Bool} : ∀ {ts : List Ty} {i j t}, findIdx p i ts = some (j, t) → t ∈ ts := by
  intro ts
  induction ts with
  | nil => intro i j t h; simp [findIdx] at h
  | cons u ts ih =>
    intro i j t h
    simp only [findIdx] at h
    split at h
    · simp only [Option.some.injEq, Prod.mk.injEq] at h; simp [h.2]
    · simp [ih h]

theorem fieldByName_mem {n : Str} : ∀ {fs : List Field} {i j f}, fieldByNameFrom i fs n = some (j, f) → f ∈ fs := by
  intro fs
  induction fs with
  | nil => intro i j f h; simp [fieldByNameFrom] at h
  | cons u fs ih =>
    intro i j f h
    simp only [fieldByNameFrom] at h
    split at h
    · simp only [Option.some.injEq, Prod.mk.injEq] at h; simp [h.2]
    · simp [ih h]

/-- Field types of a table are at most this big. -/
def FieldsLe (env : Env) (M : Nat) : Prop :=
  ∀ q d fs f, env.find q = some d → d.kind = .record fs → f ∈ fs → f.ty.size ≤ M

/-- Sizes of the fields of the records. -/
def fieldsSize : List Field → Nat
  | [] => 0
  | f :: fs => f.ty.size + fieldsSize fs

def Def.fsize (d : Def) : Nat :=
  match d.kind with
  | .record fs => fieldsSize fs
  | _ => 0

def Env.fsize : Env → Nat
  | [] => 0
  | (_, d) :: e => d.fsize + Env.fsize e

theorem fieldsSize_mem {f : Field} : ∀ {fs : List Field}, f ∈ fs → f.ty.size ≤ fieldsSize fs := by
  intro fs
  induction fs with
  | nil => intro h; simp at h
  | cons u fs ih =>
    intro h
    simp only [fieldsSize]
    rcases List.mem_cons.1 h with h | h
    · subst h; omega
    · have := ih h; omega

theorem Env.find_mem {env : Env} {q d} (h : env.find q = some d) : (q, d) ∈ env := by
  induction env with
  | nil => simp [Env.find] at h
  | cons x env ih =>
    obtain ⟨q', d'⟩ := x
    simp only [Env.find] at h
    split at h
    · simp only [Option.some.injEq] at h; rename_i he; subst he; subst h; simp
    · simp [ih h]

theorem fieldsLe_fsize (env : Env) : FieldsLe env env.fsize := by
  intro q d fs f h hk hf
  have := Env.find_mem h
  clear h
  induction env with
  | nil => simp at this
  | cons x env ih =>
    obtain ⟨q', d'⟩ := x
    simp only [Env.fsize]
    rcases List.mem_cons.1 this with h | h
    · simp only [Prod.mk.injEq] at h
      have e : d'.fsize = fieldsSize fs := by rw [← h.2]; unfold Def.fsize; rw [hk]
      have := fieldsSize_mem hf
      omega
    · have := ih h; omega

/-- The method keys a compilation can create. -/
def allKeys (we : Env) : List MKey := we.flatMap fun x => [(false, x.2.goName), (true, x.2.goName)]

/-- How many of them are not started. -/
def unstarted (we : Env) (st : CState) : Nat :=
  ((allKeys we).filter fun k => !(st.started.map (·.1)).contains k).length

theorem filter_length_le {α : Type} {p q : α → Bool} {l : List α} (h : ∀ x, p x = true → q x = true) :
    (l.filter p).length ≤ (l.filter q).length := by
  induction l with
  | nil => simp
  | cons x l ih =>
    simp only [List.filter_cons]
    have := h x
    cases hp : p x <;> cases hq : q x <;> simp_all
    omega

theorem filter_length_lt {α : Type} {p q : α → Bool} {l : List α} (h : ∀ x, p x = true → q x = true) {a}
    (ha : a ∈ l) (hp : p a = false) (hq : q a = true) : (l.filter p).length < (l.filter q).length := by
  induction l with
  | nil => simp at ha
  | cons x l ih =>
    have hle := filter_length_le (l := l) h
    simp only [List.filter_cons]
    rcases List.mem_cons.1 ha with rfl | ha
    · simp only [hp, hq]; simp; omega
    · have := ih ha
      have hx := h x
      cases hp : p x <;> cases hq : q x <;> simp_all
      omega

theorem unstarted_mono {we : Env} {a b : CState} (h : Ext a b) : unstarted we b ≤ unstarted we a := by
  apply filter_length_le
  intro k hk
  simp only [Bool.not_eq_true', List.contains_eq_mem, decide_eq_false_iff_not] at hk ⊢
  intro hm
  obtain ⟨x, h1, h2⟩ := List.mem_map.1 hm
  exact hk (List.mem_map.2 ⟨x, h.started.subset h1, h2⟩)

theorem unstarted_start {we : Env} {st : CState} {k : MKey} {pair} (hk : k ∈ allKeys we)
    (hf : findMethod st.started k = none) :
    unstarted we { st with started := st.started ++ [(k, pair)] } < unstarted we st := by
  apply filter_length_lt (a := k) _ hk
  · simp
  · have := findMethod_none hf
    simp only [Bool.not_eq_true', List.contains_eq_mem, decide_eq_false_iff_not]
    intro hm
    obtain ⟨x, h1, h2⟩ := List.mem_map.1 hm
    exact this x h1 h2
  · intro x hx
    simp only [Bool.not_eq_true', List.contains_eq_mem, decide_eq_false_iff_not] at hx ⊢
    intro hm; apply hx; simp only [List.map_append, List.mem_append]; exact .inl hm

theorem wrapIR_fuel {pre post : List IR} {x : CRes} (h : x ≠ .error .fuel) : wrapIR pre post x ≠ .error .fuel := by
  cases x with
  | error e => simpa [wrapIR] using h
  | ok y => obtain ⟨a, b⟩ := y; simp [wrapIR]

theorem seqIR_fuel {a : CRes} {b : CState → CRes} (h : a ≠ .error .fuel)
    (hb : ∀ irs st, a = .ok (irs, st) → b st ≠ .error .fuel) : seqIR a b ≠ .error .fuel := by
  cases a with
  | error e => simpa [seqIR] using h
  | ok y => obtain ⟨irs, st⟩ := y; exact wrapIR_fuel (hb irs st rfl)

theorem symbols_fuel (id : Nat) (rs : List Str) (d : Str) : ∀ (ss : List Str) (i : Nat) st,
    compileSymbols id rs d i ss st ≠ .error .fuel := by
  intro ss
  induction ss with
  | nil => intro i st; simp [compileSymbols]
  | cons s ss ih =>
    intro i st
    simp only [compileSymbols]
    split
    · exact wrapIR_fuel (ih _ _)
    · split
      · split
        · simp
        · exact wrapIR_fuel (ih _ _)
      · exact wrapIR_fuel (ih _ _)

theorem enum_fuel (ws reader st) : compileEnum ws reader st ≠ .error .fuel := by
  unfold compileEnum
  split
  · simp
  · exact wrapIR_fuel (symbols_fuel _ _ _ _ _ _)

theorem defaults_fuel : ∀ (l : List (Nat × Field)) st, compileDefaults l st ≠ .error .fuel := by
  intro l
  induction l with
  | nil => intro st; simp [compileDefaults]
  | cons x l ih =>
    obtain ⟨i, f⟩ := x
    intro st
    simp only [compileDefaults]
    split
    · simp
    · exact wrapIR_fuel (ih _)

section
variable {Q : BodyPred} {ord : Orders} {lax : Bool} {we re : Env} {rec : CState → Ty → Option Ty → CRes}

theorem members_fuel {k : Nat} (hrec : RecEmits Q rec) {id reader} : ∀ (ts : List Ty) (i : Nat) st,
    unstarted we st ≤ k →
    (∀ t ∈ ts, ∀ r, Ty.osize r ≤ Ty.osize reader → ∀ st, unstarted we st ≤ k → rec st t r ≠ .error .fuel) →
    compileMembers we re rec id reader i ts st ≠ .error .fuel := by
  intro ts
  induction ts with
  | nil => intro i st _ _; simp [compileMembers]
  | cons t ts ih =>
    intro i st hk h
    simp only [compileMembers]
    apply seqIR_fuel
    · have ht := h t (by simp)
      have hs : ∀ {p : Ty → Bool} {j r rs}, findIdx p 0 rs = some (j, r) →
          Ty.osize (some r) ≤ Ty.osize (some (.union rs)) := by
        intro p j r rs hf
        have := size_mem (findIdx_mem hf)
        simp only [Ty.osize, Ty.size]; omega
      unfold compileMember
      split
      · exact wrapIR_fuel (ht _ (Nat.le_refl _) _ hk)
      · split
        · rename_i hf
          split
          · simp
          · exact wrapIR_fuel (ht _ (hs hf) _ hk)
        · split
          · rename_i hf
            split
            · simp
            · exact wrapIR_fuel (ht _ (hs hf) _ hk)
          · simp
      · split
        · split
          · simp
          · exact wrapIR_fuel (ht _ (Nat.le_refl _) _ hk)
        · simp
    · intro irs st' hok
      refine ih _ _ (Nat.le_trans (unstarted_mono ?_) hk) (fun t ht => h t (by simp [ht]))
      have he := emits_member hrec hok (b := []) (size := i + 1) (.casesNil)
      exact he.ext

theorem fields_fuel {k : Nat} (hrec : RecEmits Q rec) {reader : Option (List Field)} : ∀ (ws : List Field) st,
    unstarted we st ≤ k →
    (∀ w ∈ ws, ∀ st, unstarted we st ≤ k → rec st w.ty none ≠ .error .fuel) →
    (∀ w ∈ ws, ∀ rfs, reader = some rfs → ∀ rf ∈ rfs, ∀ st, unstarted we st ≤ k →
      rec st w.ty (some rf.ty) ≠ .error .fuel) →
    compileFields we re rec reader ws st ≠ .error .fuel := by
  intro ws
  induction ws with
  | nil => intro st _ _ _; simp [compileFields]
  | cons w ws ih =>
    intro st hk h1 h2
    have ih' := fun st hk => ih st hk (fun w hw => h1 w (by simp [hw])) (fun w hw => h2 w (by simp [hw]))
    simp only [compileFields]
    split
    · apply seqIR_fuel (h1 w (by simp) _ hk)
      intro irs st' hok
      exact ih' _ (Nat.le_trans (unstarted_mono (hrec _ _ _ _ _ hok).ext) hk)
    · rename_i i rf hf
      split
      · have hm : ∃ rfs, reader = some rfs ∧ rf ∈ rfs := by
          cases reader with
          | none => simp at hf
          | some rfs => exact ⟨rfs, rfl, fieldByName_mem hf⟩
        obtain ⟨rfs, he, hm⟩ := hm
        apply seqIR_fuel (wrapIR_fuel (h2 w (by simp) rfs he rf hm _ hk))
        intro irs st' hok
        obtain ⟨mid, hmid, _⟩ := wrapIR_ok hok
        exact ih' _ (Nat.le_trans (unstarted_mono (hrec _ _ _ _ _ hmid).ext) hk)
      · simp
end

/-- Enough fuel for compiling a value of type `w` for a reader `r` when `k` methods are
left to be started; `M` and `S` bound the sizes of the field types. -/
def fuelFor (M S k : Nat) (w : Ty) (r : Option Ty) : Nat :=
  k * ((M + 1) * (S + 1)) + w.size * (S + 1) + Ty.osize r

theorem fuelFor_lt {M S k k' : Nat} {w w' : Ty} {r r' : Option Ty} (hk : k' ≤ k)
    (hw : w'.size < w.size) (hr : Ty.osize r' ≤ S) : fuelFor M S k' w' r' < fuelFor M S k w r := by
  unfold fuelFor
  have h1 : k' * ((M + 1) * (S + 1)) ≤ k * ((M + 1) * (S + 1)) := Nat.mul_le_mul_right _ hk
  have h2 : (w'.size + 1) * (S + 1) ≤ w.size * (S + 1) := Nat.mul_le_mul_right _ hw
  rw [Nat.add_mul] at h2
  omega

theorem compileType_fuel (ord : Orders) (lax : Bool) (we re : Env) (M S : Nat) (hM : FieldsLe we M) (hS : FieldsLe re S) :
    ∀ n st w r k, unstarted we st ≤ k → Ty.osize r ≤ S → fuelFor M S k w r < n →
    compileType ord lax we re n st w r ≠ .error .fuel := by
  intro n
  induction n with
  | zero => intro st w r k _ _ h; omega
  | succ n ih =>
    intro st w r k hk hr hf
    have hE := emits_type ord lax we re n
    have hcall : ∀ key pair wfs reader st, unstarted we st ≤ k → key ∈ allKeys we →
        (∀ w' ∈ wfs, w'.ty.size ≤ M) → (∀ rfs, reader = some rfs → ∀ r' ∈ rfs, r'.ty.size ≤ S) →
        w.size = 1 →
        compileCall ord we re (compileType ord lax we re n) key pair wfs reader st ≠ .error .fuel := by
      intro key pair wfs reader st hk hkey hw' hr' hsz
      unfold compileCall
      split
      · simp
      · rename_i hnone
        have hlt := unstarted_start (pair := pair) hkey hnone
        have hkpos : 0 < k := by omega
        have hb : ∀ w', w'.size ≤ M → ∀ r', Ty.osize r' ≤ S → ∀ st', unstarted we st' ≤ k - 1 →
            compileType ord lax we re n st' w' r' ≠ .error .fuel := by
          intro w' h1 r' h2 st' h3
          refine ih _ _ _ (k - 1) h3 h2 (Nat.lt_of_lt_of_le ?_ (Nat.le_of_lt_succ hf))
          unfold fuelFor
          have e1 : k * ((M + 1) * (S + 1)) = (k - 1) * ((M + 1) * (S + 1)) + (M + 1) * (S + 1) := by
            conv => lhs; rw [show k = (k - 1) + 1 by omega, Nat.add_mul, Nat.one_mul]
          have e2 : w'.size * (S + 1) ≤ M * (S + 1) := Nat.mul_le_mul_right _ h1
          have e3 : (M + 1) * (S + 1) = M * (S + 1) + (S + 1) := by rw [Nat.add_mul, Nat.one_mul]
          rw [hsz]
          omega
        have : compileRecord ord we re (compileType ord lax we re n) st.started.length wfs reader
            { st with started := st.started ++ [(key, pair)] } ≠ .error .fuel := by
          unfold compileRecord
          apply seqIR_fuel
          · refine fields_fuel (k := k - 1) hE _ _ (by omega) ?_ ?_
            · intro w' hm st' h3; exact hb _ (hw' _ hm) _ (by simp [Ty.osize]) _ h3
            · intro w' hm rfs he rf hrf st' h3; exact hb _ (hw' _ hm) (some rf.ty) (hr' _ he _ hrf) _ h3
          · intro _ _ _; exact defaults_fuel _ _
        split
        · rename_i e he; rw [he] at this; simpa using this
        · simp
    have hdef : ∀ wd rd st, unstarted we st ≤ k → (∃ q, we.find q = some wd) →
        (∀ d, rd = some d → ∃ q, re.find q = some d) → w.size = 1 →
        compileDef ord we re (compileType ord lax we re n) wd rd st ≠ .error .fuel := by
      intro wd rd st hk ⟨q, hq⟩ hrd hsz
      have hkey : ∀ b, (b, wd.goName) ∈ allKeys we := by
        intro b
        simp only [allKeys, List.mem_flatMap]
        exact ⟨_, Env.find_mem hq, by cases b <;> simp⟩
      unfold compileDef
      split
      · rename_i wfs hkd _
        exact hcall _ _ _ _ _ hk (hkey _) (fun f hf => hM _ _ _ _ hq hkd hf) (by simp) hsz
      · rename_i wfs rfs hkd hkr
        refine hcall _ _ _ _ _ hk (hkey _) (fun f hf => hM _ _ _ _ hq hkd hf) ?_ hsz
        intro rfs' he
        simp only [Option.some.injEq] at he
        subst he
        cases rd with
        | none => simp at hkr
        | some d =>
          obtain ⟨q', hq'⟩ := hrd d rfl
          simp only [Option.map_some, Option.some.injEq] at hkr
          exact fun f hf => hS _ _ _ _ hq' hkr hf
      · simp
      · simp
      · exact enum_fuel _ _ _
      · exact enum_fuel _ _ _
      · simp
    have href : ∀ q q' st, unstarted we st ≤ k → w.size = 1 →
        compileRef ord lax we re (compileType ord lax we re n) q q' st ≠ .error .fuel := by
      intro q q' st hk hsz
      unfold compileRef
      split
      · simp
      · rename_i wd hq
        split
        · exact hdef _ _ _ hk ⟨q, hq⟩ (by simp) hsz
        · split
          · simp
          · rename_i rd hq'
            split
            · exact hdef _ _ _ hk ⟨q, hq⟩ (fun d he => ⟨_, by rw [hq', he]⟩) hsz
            · simp
    have hitem : ∀ wi r', wi.size < w.size → Ty.osize r' ≤ S → ∀ st', unstarted we st' ≤ k →
        compileType ord lax we re n st' wi r' ≠ .error .fuel := by
      intro wi r' h1 h2 st' h3
      exact ih _ _ _ k h3 h2 (Nat.lt_of_lt_of_le (fuelFor_lt (r := r) (Nat.le_refl _) h1 h2) (Nat.le_of_lt_succ hf))
    unfold compileType
    split
    · rename_i rs hu
      split
      · rename_i i r' hfi
        have hm := size_mem (findIdx_mem hfi)
        apply wrapIR_fuel
        simp only [Ty.osize, Ty.size] at hr
        apply ih _ _ _ k hk (by simp only [Ty.osize]; omega)
        unfold fuelFor at hf ⊢
        simp only [Ty.osize, Ty.size] at hf ⊢
        omega
      · simp
    · unfold compileBody
      have hblk : ∀ pre app b wi r', wi.size < w.size → Ty.osize r' ≤ S →
          compileBlock pre app b (fun st => compileType ord lax we re n st wi r') st ≠ .error .fuel := by
        intro pre app b wi r' h1 h2
        exact wrapIR_fuel (hitem wi r' h1 h2 _ (Nat.le_trans (unstarted_mono (ext_addBlock _)) hk))
      split
      · simp
      · simp
      · simp
      · simp
      · simp
      · simp
      · simp
      · simp
      · rename_i ts _
        refine wrapIR_fuel (members_fuel (k := k) hE _ _ _
          (Nat.le_trans (unstarted_mono ((ext_addError _ _).trans (ext_addSwitch _ _))) hk) ?_)
        intro t ht r' hr' st' h3
        have := size_mem ht
        exact hitem t r' (by simp only [Ty.size]; omega) (by omega) _ h3
      · split
        · exact hblk _ _ _ _ _ (by simp [Ty.size]) (by simp [Ty.osize])
        · refine hblk _ _ _ _ _ (by simp [Ty.size]) ?_
          simp only [Ty.osize, Ty.size] at hr ⊢; omega
        · simp
      · split
        · exact hblk _ _ _ _ _ (by simp [Ty.size]) (by simp [Ty.osize])
        · refine hblk _ _ _ _ _ (by simp [Ty.size]) ?_
          simp only [Ty.osize, Ty.size] at hr ⊢; omega
        · simp
      · split
        · exact href _ _ _ hk (by simp [Ty.size])
        · exact href _ _ _ hk (by simp [Ty.size])
        · simp

/-- Fuel that suffices for compiling `w` for `r`. -/
def compileBound (w r : Schema) : Nat :=
  fuelFor w.env.fsize (r.env.fsize + r.root.size) (allKeys w.env).length w.root (some r.root) + 1

theorem compileFuel_ends (ord : Orders) (lax : Bool) (w r : Schema) (n : Nat) (hn : compileBound w r ≤ n) :
    compileFuel n ord lax w r ≠ .error .fuel := by
  have h := compileType_fuel ord lax w.env r.env w.env.fsize (r.env.fsize + r.root.size)
    (fieldsLe_fsize _) (fun q d fs f h1 h2 h3 => Nat.le_trans (fieldsLe_fsize _ q d fs f h1 h2 h3) (by omega))
    n {} w.root (some r.root) (allKeys w.env).length (List.length_filter_le _ _)
    (by simp [Ty.osize]) (by unfold compileBound at hn; omega)
  unfold compileFuel
  split
  · rename_i e he; rw [he] at h; simpa using h
  · rename_i main st hc
    obtain ⟨p, hp⟩ := link_total ord (emits_type ord lax w.env r.env n _ _ _ _ _ hc)
    rw [hp]; simp
end Verif
