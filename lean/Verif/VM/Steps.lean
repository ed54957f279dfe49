import Verif.VM.Eval
/-
`vm.Eval` one step at a time, for targets that are places in a memory: what a call does to memory it does in the methods
of `types.Field` that `vm.Eval` calls (v10/vm/eval.go:35-160), and each of these is a step. Memory is a list
of objects, of a type `C`; a target is something of a type `P` that says where in memory it is.
-/
namespace Verif

/-- What is left to do of a call: nothing more, or a step and what to do then. A step looks at and changes memory;
it may panic. -/
inductive Todo (C A : Type) : Type 1
  | ret (o : Out A)
  | op {X : Type} (f : List C → Except Err (X × List C)) (k : X → Todo C A)

/-- One after the other, if the first does not fail. -/
def Todo.bind {C A B : Type} : Todo C A → (A → Todo C B) → Todo C B
  | .ret (.done a), k => k a
  | .ret (.err e), _ => .ret (.err e)
  | .ret .timeout, _ => .ret .timeout
  | .op f g, k => .op f (fun x => (g x).bind k)

/-- A call that takes all its steps with nobody in between. -/
def Todo.run {C A : Type} : Todo C A → List C → Out (A × List C)
  | .ret (.done a), h => .done (a, h)
  | .ret (.err e), _ => .err e
  | .ret .timeout, _ => .timeout
  | .op f k, h => match f h with
    | .error e => .err e
    | .ok (x, h') => (k x).run h'

/-- A method of the target `t`. -/
def methodA {C P : Type} (f : P × List C → Except Err (P × List C)) (t : P) : Todo C P := .op (fun h => f (t, h)) (fun S => .ret (.done S))

/-- `if setToNil { target.NullField(i) }`, v10/vm/eval.go:88-90,100-102,107-109. -/
def nullIfA {C P : Type} (fo : FieldOps (P × List C)) (nil : Bool) (t : P) (i : Int) : Todo C P :=
  if nil then methodA (fun s => fo.nullField s i) t else .ret (.done t)

/-- `evalInner`, v10/vm/eval.go:35-160, as in VM/Eval.lean, one method call at a time. -/
def evalA {C P R : Type} (ro : ReaderOps R) (fo : FieldOps (P × List C)) (p : Program) :
    Nat → Nat → Frame → Bool → R → P → Todo C (Ret R P)
  | 0, _, _, _, _, _ => .ret .timeout
  | n + 1, pc, fr, fl, r, t =>
    match p.instrs[pc]? with
    | none => .ret (.done ⟨false, pc, r, t⟩)
    | some ⟨op, arg⟩ =>
      match op with
      | .read => match doRead ro arg fr r with
        | .error e => .ret (.err e)
        | .ok (fr', r') => evalA ro fo p n (pc + 1) fr' fl r' t
      | .set => (methodA (fun s => doSet fo arg fr s) t).bind fun t' => evalA ro fo p n (pc + 1) fr fl r t'
      | .setDefault => (methodA (fun s => fo.setDefault s arg) t).bind fun t' => evalA ro fo p n (pc + 1) fr fl r t'
      | .enter => (methodA (fun s => fo.get s arg) t).bind fun sub =>
        (evalA ro fo p n (pc + 1) {} false r sub).bind fun ret =>
        (nullIfA fo ret.nil t arg).bind fun t' => evalA ro fo p n (ret.pc + 1) fr fl ret.r t'
      | .exit => (methodA fo.finalize t).bind fun t' => .ret (.done ⟨fl, pc, r, t'⟩)
      | .setExitNull => evalA ro fo p n (pc + 1) fr true r t
      | .appendArray => (methodA fo.appendArray t).bind fun sub =>
        (evalA ro fo p n (pc + 1) {} false r sub).bind fun ret =>
        (nullIfA fo ret.nil t (-1)).bind fun t' => evalA ro fo p n (ret.pc + 1) fr fl ret.r t'
      | .appendMap => (methodA (fun s => fo.appendMap s fr.string) t).bind fun sub =>
        (evalA ro fo p n (pc + 1) {} false r sub).bind fun ret =>
        (nullIfA fo ret.nil t (-1)).bind fun t' => evalA ro fo p n (ret.pc + 1) fr fl ret.r t'
      | .call => if arg < 0 then .ret (.err .panic) else
        (evalA ro fo p n arg.toNat {} false r t).bind fun ret => evalA ro fo p n (pc + 1) fr fl ret.r ret.t
      | .ret => .ret (.done ⟨false, pc, r, t⟩)
      | .jump => if arg < 0 then .ret (.err .panic) else evalA ro fo p n arg.toNat fr fl r t
      | .evalGreater => evalA ro fo p n (pc + 1) { fr with cond := decide (arg < fr.long.toInt) } fl r t
      | .evalEqual => evalA ro fo p n (pc + 1) { fr with cond := decide (fr.long.toInt = arg) } fl r t
      | .condJump =>
        if fr.cond then
          if arg < 0 then .ret (.err .panic) else evalA ro fo p n arg.toNat fr fl r t
        else evalA ro fo p n (pc + 1) fr fl r t
      | .addLong => evalA ro fo p n (pc + 1) { fr with long := fr.long + BitVec.ofInt 64 arg } fl r t
      | .setLong => evalA ro fo p n (pc + 1) { fr with long := BitVec.ofInt 64 arg } fl r t
      | .setInt => evalA ro fo p n (pc + 1) { fr with int := BitVec.ofInt 32 arg } fl r t
      | .multLong => evalA ro fo p n (pc + 1) { fr with long := fr.long * BitVec.ofInt 64 arg } fl r t
      | .hintSize => (methodA (fun s => fo.hintSize s fr.long) t).bind fun t' => evalA ro fo p n (pc + 1) fr fl r t'
      | .pushLoop => (evalA ro fo p n (pc + 1) {} false r t).bind fun ret => evalA ro fo p n (ret.pc + 1) fr fl ret.r ret.t
      | .popLoop => .ret (.done ⟨false, pc, r, t⟩)
      | .halt =>
        if arg = 0 then .ret (.done ⟨false, pc, r, t⟩)
        else if arg < 0 then .ret (.err .panic)
        else match p.errors[arg.toNat - 1]? with
          | some m => .ret (.err (.runtime m))
          | none => .ret (.err .panic)
      | .nullField => (methodA (fun s => fo.nullField s arg) t).bind fun t' => evalA ro fo p n (pc + 1) fr fl r t'

/-- What a place holds is in memory, so that nothing is to be done when a target that it has handed out has been filled. -/
structure FieldOps.InPlace {C P : Type} (fo : FieldOps (P × List C)) : Prop where
  put : ∀ q h i s, fo.put (q, h) i s = (q, s.2)
  putMap : ∀ q h k s, fo.putMap (q, h) k s = (q, s.2)
  putArray : ∀ q h s, fo.putArray (q, h) s = (q, s.2)

/-! ### With nobody in between -/

/-- The outcome as in VM/Eval.lean, where memory is part of the target. -/
def Out.solo {C P R : Type} : Out (Ret R P × List C) → Out (Ret R (P × List C))
  | .done (a, h) => .done ⟨a.nil, a.pc, a.r, (a.t, h)⟩
  | .err e => .err e
  | .timeout => .timeout

theorem Todo.run_bind {C A B : Type} : ∀ (a : Todo C A) (k : A → Todo C B) (h : List C),
    (a.bind k).run h = match a.run h with
      | .done (x, h') => (k x).run h'
      | .err e => .err e
      | .timeout => .timeout
  | .ret (.done a), k, h => rfl
  | .ret (.err e), k, h => rfl
  | .ret .timeout, k, h => rfl
  | .op f g, k, h => by
    simp only [Todo.bind, Todo.run]
    cases f h with
    | error e => rfl
    | ok x => exact Todo.run_bind (g x.1) k x.2

theorem methodA_run {C P : Type} (f : P × List C → Except Err (P × List C)) (t : P) (h : List C) :
    (methodA f t).run h = match f (t, h) with
      | .error e => .err e
      | .ok s => .done s := by
  simp only [methodA, Todo.run]
  cases f (t, h) with
  | error e => rfl
  | ok s => rfl

theorem methodA_bind {C P B : Type} (f : P × List C → Except Err (P × List C)) (t : P) (k : P → Todo C B) (h : List C) :
    ((methodA f t).bind k).run h = match f (t, h) with
      | .error e => .err e
      | .ok s => (k s.1).run s.2 := by
  rw [Todo.run_bind, methodA_run]
  cases f (t, h) <;> rfl

theorem nullIfA_bind {C P B : Type} (fo : FieldOps (P × List C)) (nil : Bool) (t : P) (i : Int) (k : P → Todo C B) (h : List C) :
    ((nullIfA fo nil t i).bind k).run h = match nullIf fo nil (t, h) i with
      | .error e => .err e
      | .ok s => (k s.1).run s.2 := by
  cases nil with
  | true =>
    have h1 : nullIf fo true (t, h) i = fo.nullField (t, h) i := rfl
    have h2 : nullIfA fo true t i = methodA (fun s => fo.nullField s i) t := rfl
    rw [h1, h2, methodA_bind]
  | false => rfl

/-- The steps of a call, taken one after the other, are the call. -/
theorem evalA_run {C P R : Type} {ro : ReaderOps R} {fo : FieldOps (P × List C)} (hp : fo.InPlace) {p : Program} :
    ∀ (n pc : Nat) (fr : Frame) (fl : Bool) (r : R) (q : P) (h : List C),
      ((evalA ro fo p n pc fr fl r q).run h).solo = evalInner ro fo p n pc fr fl r (q, h)
  | 0, _, _, _, _, _, _ => rfl
  | n + 1, pc, fr, fl, r, q, h => by
    have ih := @evalA_run C P R ro fo hp p n
    have hm : ∀ (f : P × List C → Except Err (P × List C)) (k : P → Todo C (Ret R P)) (k' : (P × List C) → Out (Ret R (P × List C))) (Y : Out (Ret R (P × List C))),
        (∀ S h', ((k S).run h').solo = k' (S, h')) → (∀ e, f (q, h) = .error e → Y = .err e) → (∀ s, f (q, h) = .ok s → Y = k' s) →
        (((methodA f q).bind k).run h).solo = Y := by
      intro f k k' Y hk h1 h2
      rw [methodA_bind]
      cases hf : f (q, h) with
      | error e => rw [h1 e hf]; rfl
      | ok s => rw [h2 s hf]; exact hk s.1 s.2
    have hc : ∀ (pc' : Nat) (h : List C) (q : P) (k : Ret R P → Todo C (Ret R P)) (k' : Ret R (P × List C) → Out (Ret R (P × List C))) (Y : Out (Ret R (P × List C))),
        (∀ a h, ((k a).run h).solo = k' ⟨a.nil, a.pc, a.r, (a.t, h)⟩) →
        (evalInner ro fo p n pc' {} false r (q, h) = .timeout → Y = .timeout) →
        (∀ e, evalInner ro fo p n pc' {} false r (q, h) = .err e → Y = .err e) →
        (∀ a, evalInner ro fo p n pc' {} false r (q, h) = .done a → Y = k' a) →
        (((evalA ro fo p n pc' {} false r q).bind k).run h).solo = Y := by
      intro pc' h q k k' Y hk h1 h2 h3
      rw [Todo.run_bind]
      rw [← ih] at h1 h2 h3
      cases ha : (evalA ro fo p n pc' {} false r q).run h with
      | timeout => rw [h1 (by rw [ha]; rfl)]; rfl
      | err e => rw [h2 e (by rw [ha]; rfl)]; rfl
      | done a => rw [h3 ⟨a.1.nil, a.1.pc, a.1.r, (a.1.t, a.2)⟩ (by rw [ha]; rfl)]; exact hk a.1 a.2
    have hnl : ∀ (a : Ret R P) (h2 : List C) (i : Int) (Y : Out (Ret R (P × List C))),
        (∀ e, nullIf fo a.nil (q, h2) i = .error e → Y = .err e) →
        (∀ s, nullIf fo a.nil (q, h2) i = .ok s → Y = evalInner ro fo p n (a.pc + 1) fr fl a.r s) →
        (((nullIfA fo a.nil q i).bind fun t' => evalA ro fo p n (a.pc + 1) fr fl a.r t').run h2).solo = Y := by
      intro a h2 i Y h3 h4
      rw [nullIfA_bind]
      cases hn : nullIf fo a.nil (q, h2) i with
      | error e => rw [h3 e hn]; rfl
      | ok s => rw [h4 s hn]; exact ih _ _ _ _ _ _
    unfold evalA evalInner
    cases hi : p.instrs[pc]? with
    | none => rfl
    | some i =>
      obtain ⟨op, arg⟩ := i
      cases op with
      | read =>
        simp only
        cases doRead ro arg fr r with
        | error e => rfl
        | ok x => exact ih _ _ _ _ _ _
      | set =>
        simp only
        exact hm _ _ (fun s => evalInner ro fo p n (pc + 1) fr fl r s) _ (fun S h' => ih (pc + 1) fr fl r S h')
          (fun e he => by simp only [he]) (fun s he => by simp only [he])
      | setDefault =>
        simp only
        exact hm _ _ (fun s => evalInner ro fo p n (pc + 1) fr fl r s) _ (fun S h' => ih (pc + 1) fr fl r S h')
          (fun e he => by simp only [he]) (fun s he => by simp only [he])
      | enter =>
        simp only
        refine hm _ _ (fun s => match evalInner ro fo p n (pc + 1) {} false r s with
          | .timeout => .timeout
          | .err e => .err e
          | .done a => match nullIf fo a.nil (fo.put (q, h) arg a.t) arg with
            | .error e => .err e
            | .ok t' => evalInner ro fo p n (a.pc + 1) fr fl a.r t') _ (fun S h' => ?_) (fun e he => by simp only [he]) (fun s he => ?_)
        · refine hc _ _ _ _ (fun a => match nullIf fo a.nil (fo.put (q, h) arg a.t) arg with
            | .error e => .err e
            | .ok t' => evalInner ro fo p n (a.pc + 1) fr fl a.r t') _ (fun a h2 => ?_) (fun he => by simp only [he])
            (fun e he => by simp only [he]) (fun a he => by simp only [he])
          exact hnl a h2 _ _ (fun e he => by simp only [hp.put, he])
            (fun s he => by simp only [hp.put, he])
        · simp only [he]
          cases evalInner ro fo p n (pc + 1) {} false r s with
          | timeout => rfl
          | err e => rfl
          | done a => simp only; generalize nullIf _ _ _ _ = z; cases z <;> rfl
      | exit =>
        simp only
        exact hm _ _ (fun s => .done ⟨fl, pc, r, s⟩) _ (fun S h' => rfl) (fun e he => by simp only [he]) (fun s he => by simp only [he])
      | setExitNull => exact ih _ _ _ _ _ _
      | appendArray =>
        simp only
        refine hm _ _ (fun s => match evalInner ro fo p n (pc + 1) {} false r s with
          | .timeout => .timeout
          | .err e => .err e
          | .done a => match nullIf fo a.nil (fo.putArray (q, h) a.t) (-1) with
            | .error e => .err e
            | .ok t' => evalInner ro fo p n (a.pc + 1) fr fl a.r t') _ (fun S h' => ?_) (fun e he => by simp only [he]) (fun s he => ?_)
        · refine hc _ _ _ _ (fun a => match nullIf fo a.nil (fo.putArray (q, h) a.t) (-1) with
            | .error e => .err e
            | .ok t' => evalInner ro fo p n (a.pc + 1) fr fl a.r t') _ (fun a h2 => ?_) (fun he => by simp only [he])
            (fun e he => by simp only [he]) (fun a he => by simp only [he])
          exact hnl a h2 _ _ (fun e he => by simp only [hp.putArray, he])
            (fun s he => by simp only [hp.putArray, he])
        · simp only [he]
          cases evalInner ro fo p n (pc + 1) {} false r s with
          | timeout => rfl
          | err e => rfl
          | done a => simp only; generalize nullIf _ _ _ _ = z; cases z <;> rfl
      | appendMap =>
        simp only
        refine hm _ _ (fun s => match evalInner ro fo p n (pc + 1) {} false r s with
          | .timeout => .timeout
          | .err e => .err e
          | .done a => match nullIf fo a.nil (fo.putMap (q, h) fr.string a.t) (-1) with
            | .error e => .err e
            | .ok t' => evalInner ro fo p n (a.pc + 1) fr fl a.r t') _ (fun S h' => ?_) (fun e he => by simp only [he]) (fun s he => ?_)
        · refine hc _ _ _ _ (fun a => match nullIf fo a.nil (fo.putMap (q, h) fr.string a.t) (-1) with
            | .error e => .err e
            | .ok t' => evalInner ro fo p n (a.pc + 1) fr fl a.r t') _ (fun a h2 => ?_) (fun he => by simp only [he])
            (fun e he => by simp only [he]) (fun a he => by simp only [he])
          exact hnl a h2 _ _ (fun e he => by simp only [hp.putMap, he])
            (fun s he => by simp only [hp.putMap, he])
        · simp only [he]
          cases evalInner ro fo p n (pc + 1) {} false r s with
          | timeout => rfl
          | err e => rfl
          | done a => simp only; generalize nullIf _ _ _ _ = z; cases z <;> rfl
      | call =>
        simp only
        by_cases hneg : arg < 0
        · rw [if_pos hneg, if_pos hneg]; rfl
        · rw [if_neg hneg, if_neg hneg]; exact hc _ _ _ _ (fun a => evalInner ro fo p n (pc + 1) fr fl a.r a.t) _
            (fun a h2 => ih _ _ _ _ _ _) (fun he => by simp only [he]) (fun e he => by simp only [he]) (fun a he => by simp only [he])
      | ret => rfl
      | jump =>
        simp only
        by_cases hneg : arg < 0
        · rw [if_pos hneg, if_pos hneg]; rfl
        · rw [if_neg hneg, if_neg hneg]; exact ih _ _ _ _ _ _
      | evalGreater => exact ih _ _ _ _ _ _
      | evalEqual => exact ih _ _ _ _ _ _
      | condJump =>
        simp only
        by_cases hcd : fr.cond = true
        · rw [if_pos hcd, if_pos hcd]
          by_cases hneg : arg < 0
          · rw [if_pos hneg, if_pos hneg]; rfl
          · rw [if_neg hneg, if_neg hneg]; exact ih _ _ _ _ _ _
        · rw [if_neg hcd, if_neg hcd]; exact ih _ _ _ _ _ _
      | addLong => exact ih _ _ _ _ _ _
      | setLong => exact ih _ _ _ _ _ _
      | setInt => exact ih _ _ _ _ _ _
      | multLong => exact ih _ _ _ _ _ _
      | hintSize =>
        simp only
        exact hm _ _ (fun s => evalInner ro fo p n (pc + 1) fr fl r s) _ (fun S h' => ih (pc + 1) fr fl r S h')
          (fun e he => by simp only [he]) (fun s he => by simp only [he])
      | pushLoop =>
        simp only
        exact hc _ _ _ _ (fun a => evalInner ro fo p n (a.pc + 1) fr fl a.r a.t) _
          (fun a h2 => ih _ _ _ _ _ _) (fun he => by simp only [he]) (fun e he => by simp only [he]) (fun a he => by simp only [he])
      | popLoop => rfl
      | halt =>
        simp only
        by_cases h0 : arg = 0
        · rw [if_pos h0, if_pos h0]; rfl
        · rw [if_neg h0, if_neg h0]
          by_cases hneg : arg < 0
          · rw [if_pos hneg, if_pos hneg]; rfl
          · rw [if_neg hneg, if_neg hneg]
            cases p.errors[arg.toNat - 1]? <;> rfl
      | nullField =>
        simp only
        exact hm _ _ (fun s => evalInner ro fo p n (pc + 1) fr fl r s) _ (fun S h' => ih (pc + 1) fr fl r S h')
          (fun e he => by simp only [he]) (fun s he => by simp only [he])
end Verif
