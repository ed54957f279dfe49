import Verif.Gen.EnvLocal
import Verif.Gen.Decode
/-
The option `AllowLaxNames`, v10/compiler/options.go:5-9: what `compile` with it has to do with
`compile` without.
-/
namespace Verif
set_option linter.unusedSimpArgs false
set_option linter.unusedVariables false

/-- `AddAliases`-like: the definition that `q` names gets the alias `a`. -/
def Env.withAlias (env : Env) (q a : QName) : Env :=
  env.map fun x => if x.1 = q then (x.1, { x.2 with aliases := a :: x.2.aliases }) else x

theorem withAlias_find {q a : QName} : ∀ (env : Env) (p : QName), (env.withAlias q a).find p =
    if p = q then (env.find p).map (fun d => { d with aliases := a :: d.aliases }) else env.find p := by
  intro env
  induction env with
  | nil => intro p; split <;> rfl
  | cons x env ih =>
    intro p
    have ih := ih p
    obtain ⟨k, d⟩ := x
    simp only [Env.withAlias, List.map_cons, Env.find] at ih ⊢
    by_cases hk : k = q
    · subst hk
      simp only [if_pos rfl]
      by_cases hp : p = k
      · subst hp; simp
      · have : ¬ k = p := fun h => hp h.symm
        simp [hp, this] at ih ⊢; exact ih
    · rw [if_neg hk]
      by_cases hp : k = p
      · subst hp; simp [hk]
      · simp only [hp, if_false]; exact ih

/-- What the first gives, the second gives. -/
def CUp {α : Type} (a b : Except CErr α) : Prop := ∀ x, a = .ok x → b = .ok x

theorem CUp.rfl {α : Type} {a : Except CErr α} : CUp a a := fun _ h => h
theorem CUp.err {α : Type} {e} {b : Except CErr α} : CUp (.error e) b := fun _ h => nomatch h

theorem CUp.wrap {pre post : List IR} {a b : CRes} (h : CUp a b) : CUp (wrapIR pre post a) (wrapIR pre post b) := by
  cases a with
  | error e => exact .err
  | ok x => rw [h x _root_.rfl]; exact .rfl

theorem CUp.seq {a b : CRes} {f g : CState → CRes} (h : CUp a b) (hf : ∀ st, CUp (f st) (g st)) :
    CUp (seqIR a f) (seqIR b g) := by
  cases a with
  | error e => exact .err
  | ok x => rw [h x _root_.rfl]; exact (hf _).wrap

/-- The reader's type, if there is one, mentions names in `S` only. -/
def OptMentions (S : QName → Prop) (r : Option Ty) : Prop := ∀ t, r = some t → t.Mentions S

section
variable {S : QName → Prop} {ord : Orders} {we re re' : Env} {f g : CState → Ty → Option Ty → CRes}
  (hS : SameOn S re re')
  (h : ∀ st w r, OptMentions S r → CUp (f st w r) (g st w r))

theorem optNone : OptMentions S none := fun _ h => nomatch h
theorem optSome {t : Ty} (h : t.Mentions S) : OptMentions S (some t) := fun _ h' => by cases h'; exact h

include hS h

theorem cup_member (id i t reader st) (hr : OptMentions S reader) :
    CUp (compileMember we re' f id i t reader st) (compileMember we re g id i t reader st) := by
  cases reader with
  | none => exact (h _ _ _ optNone).wrap
  | some r =>
    have hm := hr r rfl
    have hother : ∀ r : Ty, r.Mentions S → CUp
        (if t.readableBy we re' r then
          if t.isNull then .ok ([lit .setExitNull noopField], { st with nullNarrow := true })
          else wrapIR [.switchCase id i false] [] (f st t (some r))
        else
          .ok ([.switchCase id i false, lit .halt ((st.errors.length + 1 : Nat) : Int)],
            st.addError (.noUnionField (t.goName we))))
        (if t.readableBy we re r then
          if t.isNull then .ok ([lit .setExitNull noopField], { st with nullNarrow := true })
          else wrapIR [.switchCase id i false] [] (g st t (some r))
        else
          .ok ([.switchCase id i false, lit .halt ((st.errors.length + 1 : Nat) : Int)],
            st.addError (.noUnionField (t.goName we)))) := by
      intro r hm
      rw [readable_same hS we t r hm]
      split
      · split
        · exact .rfl
        · exact (h _ _ _ (optSome hm)).wrap
      · exact .rfl
    cases r with
    | union rs =>
      simp only [compileMember]
      rw [findIdx_same hS (p := fun r => r.goName re == t.goName we) (fun r hr => by simp only [goName_same hS r hr]) 0 rs hm]
      cases h1 : findIdx (fun r => r.goName re == t.goName we) 0 rs with
      | some x =>
        obtain ⟨j, r⟩ := x
        simp only
        split
        · exact .rfl
        · exact (h _ _ _ (optSome (findIdx_mentions hS h1 hm))).wrap
      | none =>
        simp only
        rw [findIdx_same hS (fun u hu => readable_same hS we t u hu) 0 rs hm]
        cases h2 : findIdx (t.readableBy we re) 0 rs with
        | some x =>
          obtain ⟨j, r⟩ := x
          simp only
          split
          · exact .rfl
          · exact (h _ _ _ (optSome (findIdx_mentions hS h2 hm))).wrap
        | none => exact .rfl
    | _ => exact hother _ hm

theorem cup_members (id reader) (hr : OptMentions S reader) : ∀ (ts : List Ty) (i : Nat) st,
    CUp (compileMembers we re' f id reader i ts st) (compileMembers we re g id reader i ts st) := by
  intro ts
  induction ts with
  | nil => intro i st; exact .rfl
  | cons t ts ih => intro i st; exact (cup_member hS h _ _ _ _ _ hr).seq fun st => ih _ _

theorem cup_fields (reader : Option (List Field)) (hr : ∀ rfs, reader = some rfs → ∀ f ∈ rfs, f.ty.Mentions S) :
    ∀ (ws : List Field) st,
    CUp (compileFields we re' f reader ws st) (compileFields we re g reader ws st) := by
  intro ws
  induction ws with
  | nil => intro st; exact .rfl
  | cons w ws ih =>
    intro st
    simp only [compileFields]
    cases hb : reader.bind (fun rfs => fieldByName rfs w.name) with
    | none => exact (h _ _ _ optNone).seq fun st => ih _
    | some x =>
      obtain ⟨i, rf⟩ := x
      obtain ⟨rfs, h1, h2⟩ := Option.bind_eq_some_iff.1 hb
      have hm := hr rfs h1 rf (List.mem_of_getElem? (fieldByName_some h2).1)
      simp only
      rw [readable_same hS we w.ty rf.ty hm]
      split
      · exact (h _ _ _ (optSome hm)).wrap.seq fun st => ih _
      · exact .err

theorem cup_call (key pair wfs) (reader : Option (List Field)) (hr : ∀ rfs, reader = some rfs → ∀ f ∈ rfs, f.ty.Mentions S) (st) :
    CUp (compileCall ord we re' f key pair wfs reader st) (compileCall ord we re g key pair wfs reader st) := by
  unfold compileCall
  split
  · exact .rfl
  · have hr : CUp (compileRecord ord we re' f st.started.length wfs reader
        { st with started := st.started ++ [(key, pair)] })
        (compileRecord ord we re g st.started.length wfs reader
        { st with started := st.started ++ [(key, pair)] }) :=
      (cup_fields hS h _ hr _ _).seq fun st => .rfl
    split
    · exact .err
    · rename_i h1; rw [hr _ h1]; exact .rfl

/-- The definitions may differ in their aliases. -/
theorem cup_def (wd : Def) (rd rd' : Option Def) (hk : rd'.map Def.kind = rd.map Def.kind) (hn : rd'.map Def.name = rd.map Def.name)
    (hr : ∀ rfs, rd.map Def.kind = some (.record rfs) → ∀ f ∈ rfs, f.ty.Mentions S) (st) :
    CUp (compileDef ord we re' f wd rd' st) (compileDef ord we re g wd rd st) := by
  unfold compileDef
  rw [hk, hn]
  split <;> first | exact .rfl | skip
  · exact cup_call hS h _ _ _ _ (fun _ h => by cases h) _
  · rename_i hr'
    exact cup_call hS h _ _ _ _ (fun _ h => by cases h; exact hr _ hr') _

theorem cup_ref (q : QName) (q' : Option QName) (hq : ∀ p, q' = some p → S p) (st) :
    CUp (compileRef ord false we re' f q q' st) (compileRef ord true we re g q q' st) := by
  unfold compileRef
  split
  · exact .rfl
  · cases q' with
    | none => exact cup_def hS h _ _ _ rfl rfl (fun _ h => by cases h) _
    | some p =>
      simp only
      rw [hS.same p (hq p rfl)]
      cases hf : re.find p with
      | none => exact .rfl
      | some rd =>
        simp only [Bool.true_or, if_true, Bool.false_or]
        split
        · refine cup_def hS h _ _ _ rfl rfl (fun rfs hk => hS.closed p rd rfs (hq p rfl) hf ?_) _
          simpa using hk
        · exact .err

theorem cup_body (w r st) (hr : OptMentions S r) :
    CUp (compileBody ord false we re' f w r st) (compileBody ord true we re g w r st) := by
  unfold compileBody
  split <;> try exact .rfl
  · exact (cup_members hS h _ _ hr _ _ _).wrap
  · split <;> first | exact .rfl | skip
    · exact (h _ _ _ optNone).wrap
    · exact (h _ _ _ (optSome (by have := hr _ rfl; simpa only [Ty.Mentions] using this))).wrap
  · split <;> first | exact .rfl | skip
    · exact (h _ _ _ optNone).wrap
    · exact (h _ _ _ (optSome (by have := hr _ rfl; simpa only [Ty.Mentions] using this))).wrap
  · split <;> first | exact .rfl | skip
    · exact cup_ref hS h _ _ (fun _ h => by cases h) _
    · exact cup_ref hS h _ _ (fun _ h => by cases h; exact hr _ rfl) _
end

section
variable {S : QName → Prop} {ord : Orders} {we re re' : Env} (hS : SameOn S re re')
include hS

theorem cup_type : ∀ n st w r, OptMentions S r →
    CUp (compileType ord false we re' n st w r) (compileType ord true we re n st w r) := by
  intro n
  induction n with
  | zero => intro st w r _; exact .err
  | succ n ih =>
    intro st w r hr
    rw [compileType_succ, compileType_succ]
    split
    · rename_i rs _
      have hm : Ty.AllMention S rs := hr _ rfl
      rw [findIdx_same hS (fun u hu => readable_same hS we w u hu) 0 rs hm]
      split
      · rename_i hx
        exact (ih _ _ _ (optSome (findIdx_mentions hS hx hm))).wrap
      · exact .rfl
    · exact cup_body hS ih _ _ _ hr
end

mutual
theorem mentions_true : ∀ t : Ty, t.Mentions (fun _ => True)
  | .null => trivial
  | .bool => trivial
  | .int => trivial
  | .long => trivial
  | .float => trivial
  | .double => trivial
  | .bytes => trivial
  | .string => trivial
  | .array t => mentions_true t
  | .map t => mentions_true t
  | .union ts => allMention_true ts
  | .ref _ => trivial
theorem allMention_true : ∀ ts : List Ty, Ty.AllMention (fun _ => True) ts
  | [] => trivial
  | t :: ts => ⟨mentions_true t, allMention_true ts⟩
end

/-- From programs compiled with the same fuel to `compile`. -/
theorem compile_up {ord : Orders} {w r r' : Schema} {prog : Program}
    (h : ∀ n, CUp (compileType ord false w.env r'.env n {} w.root (some r'.root))
      (compileType ord true w.env r.env n {} w.root (some r.root)))
    (hc : compile ord false w r' = .ok prog) : compile ord true w r = .ok prog := by
  unfold compile at hc
  have key : compileFuel (compileBound w r') ord true w r = .ok prog := by
    unfold compileFuel at hc ⊢
    split at hc
    · cases hc
    · rename_i h1
      rw [h _ _ h1]
      exact hc
  rw [compile_eq (by rw [key]; exact fun h => nomatch h), key]

theorem compile_lax {ord : Orders} {w r : Schema} {prog : Program} (hc : compile ord false w r = .ok prog) :
    compile ord true w r = .ok prog :=
  compile_up (fun n => cup_type (S := fun _ => True) ⟨fun _ _ => rfl, fun _ _ _ _ _ _ _ _ => mentions_true _⟩ n _ _ _
    (fun _ _ => mentions_true _)) hc

/-- No field of the schema's records mentions `q`. -/
def NoFieldOf (env : Env) (q : QName) : Prop :=
  ∀ p d fs, env.find p = some d → d.kind = .record fs → ∀ f ∈ fs, f.ty.Mentions (· ≠ q)

theorem sameOn_alias {env : Env} {q a : QName} (h : NoFieldOf env q) : SameOn (· ≠ q) env (env.withAlias q a) :=
  ⟨fun p hp => by rw [withAlias_find, if_neg hp], fun p d fs _ hd hk => h p d fs hd hk⟩

theorem compile_alias {ord : Orders} {w : Schema} {re : Env} {q q' a : QName} {prog : Program} (hw : w.root = .ref q)
    (hn : NoFieldOf re q') (hc : compile ord false w { env := re.withAlias q' a, root := .ref q' } = .ok prog) :
    compile ord true w { env := re, root := .ref q' } = .ok prog := by
  have hS := sameOn_alias (a := a) hn
  refine compile_up (r' := { env := re.withAlias q' a, root := .ref q' }) (fun n => ?_) hc
  cases n with
  | zero => exact .err
  | succ n =>
    rw [compileType_succ, compileType_succ, hw]
    simp only [Ty.isUnion, compileBody, compileRef]
    cases w.env.find q with
    | none => exact .rfl
    | some wd =>
      simp only
      rw [withAlias_find, if_pos rfl]
      cases hf : re.find q' with
      | none => exact .rfl
      | some rd =>
        simp only [Option.map_some, Bool.true_or, if_true, Bool.false_or]
        split
        · refine cup_def hS (fun st w r hr => cup_type hS n st w r hr) _ _ _ rfl rfl (fun rfs hk => ?_) _
          exact hn q' rd rfs hf (by simpa using hk)
        · exact .err

/-! Targets do not depend on names. -/

theorem new_alias (env : Env) (q a : QName) : Tgt.new (env.withAlias q a) = Tgt.new env := by
  funext t v
  cases t <;> try rfl
  rename_i p
  simp only [Tgt.new]
  rw [withAlias_find]
  by_cases hp : p = q
  · rw [if_pos hp]; cases env.find p <;> rfl
  · rw [if_neg hp]

theorem genOps_alias (env : Env) (q a : QName) (lim dv) : genOps (env.withAlias q a) lim dv = genOps env lim dv := by
  have h1 : genGet (env.withAlias q a) = genGet env := by
    funext t i
    unfold genGet
    simp only [new_alias]
  have h2 : genAppendMap (env.withAlias q a) = genAppendMap env := by
    funext t k
    unfold genAppendMap
    simp only [new_alias]
  have h3 : genAppendArray (env.withAlias q a) = genAppendArray env := by
    funext t
    unfold genAppendArray
    simp only [new_alias]
  unfold genOps
  rw [h1, h2, h3]

/-- `compiler.Compile(w, r, compiler.AllowLaxNames())`, then `vm.Eval` of the program into a new
value of the reader's type: what the `Deserialize` functions do, with the option, which they
do not pass. -/
inductive DeserializesLax {R : Type} (σ : Setting R) (w r : Schema) (rd : R) : Res R → Prop
  | refused {e} : compile σ.ord true w r = .error e → DeserializesLax σ w r rd .refused
  | failed {prog e} : compile σ.ord true w r = .ok prog →
      Evaluates σ.ro (genOps r.env σ.lim σ.dv) prog rd (.new r.env r.root none) (.error e) →
      DeserializesLax σ w r rd .failed
  | value {prog rd' t v} : compile σ.ord true w r = .ok prog →
      Evaluates σ.ro (genOps r.env σ.lim σ.dv) prog rd (.new r.env r.root none) (.ok (rd', t)) →
      t.val = some v → DeserializesLax σ w r rd (.value v rd')
  | junk {prog rd' t} : compile σ.ord true w r = .ok prog →
      Evaluates σ.ro (genOps r.env σ.lim σ.dv) prog rd (.new r.env r.root none) (.ok (rd', t)) →
      t.val = none → DeserializesLax σ w r rd .junk
end Verif
