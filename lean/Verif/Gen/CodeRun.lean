import Verif.Gen.Code
import Verif.Gen.SerOrder
import Verif.Go.Run
import Verif.Spec.GoValues
/-
What the generated serializers do.
-/
namespace Verif
open Spec.Go
set_option linter.unusedSimpArgs false
set_option linter.unusedSectionVars false

section
variable {W : Type} {M : Machine W} {P : Package}

/-- The call writes what `s` says and returns its error. -/
def Does (M : Machine W) (P : Package) (f : Callee) (args : List Value) (st : World W) (s : SerOut) (st1 : World W) : Prop :=
  st1.w = (runSer M.o st.w s).1 ∧ Cl M P f args st [.error (runSer M.o st.w s).2] st1

/-- The variables of a serializer, once `err` is there. -/
def frame (e : Option WErr) (g : Value) : Locals := [("err".toList, .error e), ("w".toList, .writer), ("r".toList, g)]

/-- Names that a loop may hide. -/
def Harmless (pre : Locals) : Prop :=
  pre.lookup "err".toList = none ∧ pre.lookup "w".toList = none ∧ pre.lookup "r".toList = none ∧ pre.lookup "vm".toList = none

theorem lookup_pre {x : Str} {pre l : Locals} (h : pre.lookup x = none) : (pre ++ l).lookup x = l.lookup x := by
  induction pre with
  | nil => rfl
  | cons a pre ih =>
    obtain ⟨y, v⟩ := a
    rw [List.lookup_cons] at h
    rw [List.cons_append, List.lookup_cons]
    cases hxy : x == y with
    | true => rw [hxy] at h; cases h
    | false => rw [hxy] at h; exact ih h

theorem set_pre {x : Str} {v : Value} {pre l : Locals} (h : pre.lookup x = none) :
    Locals.set x v (pre ++ l) = (Locals.set x v l).map (pre ++ ·) := by
  induction pre with
  | nil => cases h : Locals.set x v l <;> simp [h]
  | cons a pre ih =>
    obtain ⟨y, u⟩ := a
    rw [List.lookup_cons] at h
    cases hxy : x == y with
    | true => rw [hxy] at h; cases h
    | false =>
      rw [hxy] at h
      have hne : x ≠ y := by simpa using hxy
      rw [List.cons_append, Locals.set, if_neg hne, ih h, Option.map_map]
      rfl

theorem frame_err (e : Option WErr) (g : Value) : (frame e g).lookup "err".toList = some (.error e) := by
  simp [frame, List.lookup_cons]
theorem frame_w (e : Option WErr) (g : Value) : (frame e g).lookup "w".toList = some .writer := by
  have : ("w".toList == "err".toList) = false := by decide +kernel
  simp only [frame, List.lookup_cons, this, BEq.rfl]
theorem frame_r (e : Option WErr) (g : Value) : (frame e g).lookup "r".toList = some g := by
  have : ("r".toList == "err".toList) = false := by decide +kernel
  have h2 : ("r".toList == "w".toList) = false := by decide +kernel
  simp only [frame, List.lookup_cons, this, h2, BEq.rfl]
theorem frame_vm (e : Option WErr) (g : Value) : (frame e g).lookup "vm".toList = none := by
  have : ("vm".toList == "err".toList) = false := by decide +kernel
  have h2 : ("vm".toList == "w".toList) = false := by decide +kernel
  have h3 : ("vm".toList == "r".toList) = false := by decide +kernel
  simp only [frame, List.lookup_cons, this, h2, h3, List.lookup_nil]
theorem frame_fmt (e : Option WErr) (g : Value) : (frame e g).lookup "fmt".toList = none := by
  have : ("fmt".toList == "err".toList) = false := by decide +kernel
  have h2 : ("fmt".toList == "w".toList) = false := by decide +kernel
  have h3 : ("fmt".toList == "r".toList) = false := by decide +kernel
  simp only [frame, List.lookup_cons, this, h2, h3, List.lookup_nil]

theorem frame_set (e e' : Option WErr) (g : Value) : Locals.set "err".toList (.error e') (frame e g) = some (frame e' g) := by
  simp [frame, Locals.set]

theorem err_name : ("err".toList = "_".toList) = False := by
  rw [eq_iff_iff, iff_false]; decide +kernel

/-- The variables before `err` is there. -/
def start (g : Value) : Locals := [("w".toList, .writer), ("r".toList, g)]

theorem bind_err (e : Option WErr) (g : Value) : Spec.Go.bind ["err".toList] [.error e] (start g) = some (frame e g) := by
  simp only [Spec.Go.bind, err_name, if_false, start, frame]

theorem bind_start (g : Value) : Spec.Go.bind ["r".toList, "w".toList] [g, .writer] [] = some (start g) := by
  have h1 : ("r".toList = "_".toList) = False := by rw [eq_iff_iff, iff_false]; decide +kernel
  have h2 : ("w".toList = "_".toList) = False := by rw [eq_iff_iff, iff_false]; decide +kernel
  simp only [Spec.Go.bind, h1, h2, if_false, start]

theorem start_w (g : Value) : (start g).lookup "w".toList = some .writer := by
  simp only [start, List.lookup_cons, BEq.rfl]
theorem start_r (g : Value) : (start g).lookup "r".toList = some g := by
  have h2 : ("r".toList == "w".toList) = false := by decide +kernel
  simp only [start, List.lookup_cons, h2, BEq.rfl]
theorem start_vm (g : Value) : (start g).lookup "vm".toList = none := by
  have h2 : ("vm".toList == "w".toList) = false := by decide +kernel
  have h3 : ("vm".toList == "r".toList) = false := by decide +kernel
  simp only [start, List.lookup_cons, h2, h3, List.lookup_nil]

/-- Only `vm` is called from outside. -/
def FromVm (f : Callee) : Prop := ∀ x g, f = .of x g → x = "vm".toList

theorem serializer_vm (nm : Namer) (n : NS) (t : PTy) : FromVm (t.serializer nm n) := by
  intro x g h
  cases t <;> simp only [PTy.serializer] at h <;> cases h
  rfl

/-! Calls of vm -/

theorem does_vm {f : Str} {v : Value} {t : Trace} (st : World W) (h : vmWrites M.byteWriter f v = some t) :
    Does M P (.of "vm".toList f) [v, .writer] st (t, true) { st with w := (runSer M.o st.w (t, true)).1 } := by
  refine ⟨rfl, ?_⟩
  have : outside M "vm".toList f none [v, .writer] st = some ([.error (runSer M.o st.w (t, true)).2],
      { st with w := (runSer M.o st.w (t, true)).1 }) := by
    simp only [outside, if_true, h, Option.map_some, put]
  exact this

theorem vm_long (bw : Bool) (x : BitVec 64) : vmWrites bw "WriteLong".toList (.int x) = some (writeLong bw x) := by
  simp only [vmWrites, if_true]
theorem vm_int (bw : Bool) (x : BitVec 32) : vmWrites bw "WriteInt".toList (.int32 x) = some (writeInt bw x) := by
  simp only [vmWrites, if_true]
theorem vm_string (bw : Bool) (x : List Byte) : vmWrites bw "WriteString".toList (.str x) = some (writeString bw x) := by
  simp only [vmWrites, if_true]

/-! Statements that end in a check -/

/-- The statements write what `s` says; without an error the block goes on, with one it returns it. -/
def Steps (M : Machine W) (P : Package) (vars : Locals) (ss : List Stmt) (st : World W) (s : SerOut) : Prop :=
  ∃ st1, st1.w = (runSer M.o st.w s).1 ∧ match (runSer M.o st.w s).2 with
    | none => ∀ rest r st2, Bl M P vars rest st1 r st2 → Bl M P vars (ss ++ rest) st r st2
    | some e => ∀ rest, Bl M P vars (ss ++ rest) st (.ret [.error (some e)]) st1

theorem runSer_then_ok {o : WriterOps W} {w : W} {a b : SerOut} (h : (runSer o w a).2 = none) :
    runSer o w (a.andThen b) = runSer o (runSer o w a).1 b := by
  rw [runSer_andThen]
  rcases h' : runSer o w a with ⟨w', _ | e⟩
  · rfl
  · rw [h'] at h; cases h

theorem runSer_then_err {o : WriterOps W} {w : W} {a b : SerOut} {e : WErr} (h : (runSer o w a).2 = some e) :
    runSer o w (a.andThen b) = runSer o w a := by
  rw [runSer_andThen]
  rcases h' : runSer o w a with ⟨w', _ | e⟩
  · rw [h'] at h; cases h
  · rfl

theorem Steps.andThen {α : Type} (x0 : α) {vars : Locals} {ss ss' : List Stmt} {st : World W} {s : SerOut} {s' : α → SerOut}
    (h : Steps M P vars ss st s) (h' : ∀ st, ∃ x, Steps M P vars ss' st (s' x)) :
    ∃ x, Steps M P vars (ss ++ ss') st (s.andThen (s' x)) := by
  obtain ⟨st1, e1, h1⟩ := h
  cases hr : (runSer M.o st.w s).2 with
  | none =>
    rw [hr] at h1
    obtain ⟨x, st2, e2, h2⟩ := h' st1
    rw [e1] at e2 h2
    refine ⟨x, st2, by rw [runSer_then_ok hr, e2], ?_⟩
    rw [runSer_then_ok hr]
    cases hr2 : (runSer M.o (runSer M.o st.w s).1 (s' x)).2 with
    | none =>
      rw [hr2] at h2
      intro rest r st3 hb
      rw [List.append_assoc]
      exact h1 _ _ _ (h2 _ _ _ hb)
    | some e =>
      rw [hr2] at h2
      intro rest
      rw [List.append_assoc]
      exact h1 _ _ _ (h2 _)
  | some e =>
    rw [hr] at h1
    refine ⟨x0, st1, by rw [runSer_then_err hr, e1], ?_⟩
    rw [runSer_then_err hr, hr]
    intro rest
    rw [List.append_assoc]
    exact h1 _

theorem ev_err_ne {vars : Locals} {st : World W} {e : Option WErr} (h : vars.lookup "err".toList = some (.error e)) :
    Ev M P vars (.ne vErr .nil) st [.bool (!e.isNone)] st :=
  ev_ne (ev_var h) ev_nil rfl

theorem check_ok {vars : Locals} {st : World W} (h : vars.lookup "err".toList = some (.error none)) :
    Ex M P vars errCheck st (.next vars) st := ex_cond_false (ev_err_ne h)

theorem check_err {vars : Locals} {st : World W} {e : WErr} (h : vars.lookup "err".toList = some (.error (some e))) :
    Ex M P vars errCheck st (.ret [.error (some e)]) st :=
  ex_cond_true (ev_err_ne h) (bl_ret (ex_ret (ev_var h)))

/-- `err = f(arg, w); if err != nil { return err }`. -/
theorem body_call {pre : Locals} {g u : Value} {f : Callee} {arg : Expr} {st st1 : World W} {s : SerOut} (hp : Harmless pre)
    (hf : FromVm f) (ha : Ev M P (pre ++ frame none g) arg st [u] st) (hd : Does M P f [u, .writer] st s st1) :
    Steps M P (pre ++ frame none g) [.assign ["err".toList] (.call f [arg, vW]), errCheck] st s := by
  obtain ⟨e1, hc⟩ := hd
  obtain ⟨p1, p2, p3, p4⟩ := hp
  have hw : (pre ++ frame none g).lookup "w".toList = some .writer := by rw [lookup_pre p2]; exact frame_w _ _
  have hcall : Ev M P (pre ++ frame none g) (.call f [arg, vW]) st [.error (runSer M.o st.w s).2] st1 :=
    ev_call (evs_cons ha (evs_cons (ev_var hw) evs_nil)) (fun x y h => by rw [hf x y h, lookup_pre p4]; exact frame_vm _ _) hc
  have hs : ∀ e, store ["err".toList] [.error e] (pre ++ frame none g) = some (pre ++ frame e g) := by
    intro e
    simp only [store, err_name, if_false, set_pre p1, frame_set, Option.map_some, Option.bind_some]
  have he : ∀ e, (pre ++ frame e g).lookup "err".toList = some (.error e) := by
    intro e; rw [lookup_pre p1]; exact frame_err _ _
  refine ⟨st1, e1, ?_⟩
  cases hr : (runSer M.o st.w s).2 with
  | none =>
    rw [hr] at hcall
    intro rest r st2 hb
    exact bl_next (ex_assign hcall (hs none)) (bl_next (check_ok (he none)) hb)
  | some e =>
    rw [hr] at hcall
    intro rest
    exact bl_next (ex_assign hcall (hs _)) (bl_ret (check_err (he _)))

/-! Loops -/

/-- What a loop does, round by round. -/
theorem loop_runs {g : Value} {k v : Str} {body : List Stmt} (kv : Nat → Value × Value) (pre : Nat → Locals)
    (out : Nat → MapOrder → SerOut)
    (hpre : ∀ i, Spec.Go.bind [k, v] [(kv i).1, (kv i).2] (frame none g) = some (pre i ++ frame none g)) :
    ∀ (is : List Nat), is.Nodup → (∀ i ∈ is, ∀ st, ∃ ord, Steps M P (pre i ++ frame none g) body st (out i ord)) → ∀ st : World W,
      ∃ (ords : Nat → MapOrder) (st1 : World W), st1.w = (runSer M.o st.w (serAll (is.map fun i => out i (ords i)))).1 ∧
        Lp M P (frame none g) k v body (is.map kv) st
          (match (runSer M.o st.w (serAll (is.map fun i => out i (ords i)))).2 with
            | none => .next (frame none g)
            | some e => .ret [.error (some e)]) st1
  | [], _, _, st => ⟨fun _ => .id, st, rfl, lp_nil⟩
  | i :: is, hn, h, st => by
    obtain ⟨hi, hn⟩ := List.nodup_cons.1 hn
    obtain ⟨ord, st1, e1, h1⟩ := h i (by simp) st
    cases hr : (runSer M.o st.w (out i ord)).2 with
    | none =>
      rw [hr] at h1
      obtain ⟨ords, st2, e2, h2⟩ := loop_runs kv pre out hpre is hn (fun j hj => h j (by simp [hj])) st1
      refine ⟨fun j => if j = i then ord else ords j, st2, ?_⟩
      have hm : (is.map fun j => out j (if j = i then ord else ords j)) = is.map fun j => out j (ords j) :=
        List.map_congr_left fun j hj => by rw [if_neg (by rintro rfl; exact hi hj)]
      rw [List.map_cons, serAll]
      simp only []
      rw [if_pos trivial, hm, runSer_then_ok hr, ← e1]
      refine ⟨e2, ?_⟩
      rw [List.map_cons]
      have hb := h1 [] _ st1 bl_nil
      rw [List.append_nil] at hb
      refine lp_next (hpre i) hb ?_ h2
      simp [leave]
    | some e =>
      rw [hr] at h1
      refine ⟨fun _ => ord, st1, ?_⟩
      rw [List.map_cons, serAll, runSer_then_err hr, hr]
      refine ⟨e1, ?_⟩
      have hb := h1 []
      rw [List.append_nil] at hb
      exact lp_ret (hpre i) hb

/-! Arrays and maps -/

/-- `err := vm.WriteLong(…, w)` at the beginning. -/
theorem define_long {g : Value} {arg : Expr} {x : BitVec 64} {st : World W} (ha : Ev M P (start g) arg st [.int x] st) :
    Ex M P (start g) (.define ["err".toList] (vmCall "WriteLong" arg)) st
      (.next (frame (runSer M.o st.w (writeLong M.byteWriter x, true)).2 g))
      { st with w := (runSer M.o st.w (writeLong M.byteWriter x, true)).1 } :=
  ex_define (ev_call (evs_cons ha (evs_cons (ev_var (start_w g)) evs_nil))
      (fun x y h => by cases h; exact start_vm _) (does_vm st (vm_long _ _)).2) (bind_err _ _)

/-- `return vm.WriteLong(0, w)`. -/
theorem ret_long {g : Value} (k : Nat) (st : World W) :
    Bl M P (frame none g) [.ret (vmCall "WriteLong" (.num k))] st
      (.ret [.error (runSer M.o st.w (writeLong M.byteWriter (BitVec.ofNat 64 k), true)).2])
      { st with w := (runSer M.o st.w (writeLong M.byteWriter (BitVec.ofNat 64 k), true)).1 } :=
  bl_ret (ex_ret (ev_call (evs_cons (ev_num k) (evs_cons (ev_var (frame_w _ g)) evs_nil))
      (fun x y h => by cases h; exact frame_vm _ _) (does_vm st (vm_long _ _)).2))

/-- The functions for arrays and maps: the number of items, the loop, the end mark. -/
theorem counted_runs {g : Value} {k : Nat} {kn en : Str} {body : List Stmt} {xs : Nat → List (Value × Value)} {st : World W} {items : MapOrder → SerOut}
    (hlen : Spec.Go.length g = some (.int (BitVec.ofNat 64 k))) (hk : k < 2 ^ 63) (hv : ∀ l, visits M g l = some (xs l))
    (hloop : k ≠ 0 → ∀ (l : Nat) (st : World W), ∃ (ord : MapOrder) (st1 : World W), st1.w = (runSer M.o st.w (items ord)).1 ∧
        Lp M P (frame none g) kn en body (xs l) st (match (runSer M.o st.w (items ord)).2 with
            | none => .next (frame none g)
            | some e => .ret [.error (some e)]) st1) :
    ∃ (ord : MapOrder) (st1 : World W), st1.w = (runSer M.o st.w
        (if k = 0 then (writeLong M.byteWriter (BitVec.ofNat 64 k), true) else
          SerOut.andThen (writeLong M.byteWriter (BitVec.ofNat 64 k), true) ((items ord).andThen (writeLong M.byteWriter 0, true)))).1 ∧
      Bl M P (start g)
        [.define ["err".toList] (vmCall "WriteLong" (.conv "int64".toList (.len vR))),
         .cond (.or (.ne vErr .nil) (.eq (.len vR) (.num 0))) [.ret vErr],
         .range kn en vR body,
         .ret (vmCall "WriteLong" (.num 0))] st
        (.ret [.error (runSer M.o st.w
        (if k = 0 then (writeLong M.byteWriter (BitVec.ofNat 64 k), true) else
          SerOut.andThen (writeLong M.byteWriter (BitVec.ofNat 64 k), true) ((items ord).andThen (writeLong M.byteWriter 0, true)))).2]) st1 := by
  have hconv : convert "int64".toList (.int (BitVec.ofNat 64 k)) = some (.int (BitVec.ofNat 64 k)) := by
    simp only [convert, if_true]
  have hdef := define_long (M := M) (P := P) (st := st) (ev_conv (ev_len (ev_var (start_r g)) hlen) hconv)
  generalize hs0 : (writeLong M.byteWriter (BitVec.ofNat 64 k), true) = s0 at hdef
  have hret : ∀ e st, Bl M P (frame e g) [.ret vErr] st (.ret [.error e]) st := fun e st => bl_ret (ex_ret (ev_var (frame_err e g)))
  cases hr : (runSer M.o st.w s0).2 with
  | some e =>
    rw [hr] at hdef
    have hor : Ev M P (frame (some e) g) (.or (.ne vErr .nil) (.eq (.len vR) (.num 0))) { st with w := (runSer M.o st.w s0).1 }
        [.bool true] { st with w := (runSer M.o st.w s0).1 } := ev_or_true (ev_err_ne (frame_err _ _))
    refine ⟨.id, { st with w := (runSer M.o st.w s0).1 }, ?_, ?_⟩
    · split
      · rfl
      · rw [runSer_then_err hr]
    · have : (runSer M.o st.w (if k = 0 then s0 else SerOut.andThen s0 ((items .id).andThen (writeLong M.byteWriter 0, true)))).2 = some e := by
        split
        · exact hr
        · rw [runSer_then_err hr, hr]
      rw [this]
      exact bl_next hdef (bl_ret (ex_cond_true hor (hret _ _)))
  | none =>
    rw [hr] at hdef
    have hor : Ev M P (frame none g) (.or (.ne vErr .nil) (.eq (.len vR) (.num 0))) { st with w := (runSer M.o st.w s0).1 }
        [.bool (decide (k = 0))] { st with w := (runSer M.o st.w s0).1 } := by
      refine ev_or_false (ev_err_ne (frame_err _ _)) (ev_eq (ev_len (ev_var (frame_r none g)) hlen) (ev_num 0) ?_)
      have : (BitVec.ofNat 64 k = BitVec.ofNat 64 0) ↔ k = 0 := by
        constructor
        · intro h
          have := congrArg BitVec.toNat h
          simp only [BitVec.toNat_ofNat] at this
          omega
        · rintro rfl; rfl
      simp only [same, this]
    by_cases h0 : k = 0
    · refine ⟨.id, { st with w := (runSer M.o st.w s0).1 }, by rw [if_pos h0], ?_⟩
      rw [if_pos h0, hr]
      rw [decide_eq_true h0] at hor
      exact bl_next hdef (bl_ret (ex_cond_true hor (hret _ _)))
    · rw [decide_eq_false h0] at hor
      obtain ⟨ord, st2, e2, h2⟩ := hloop h0 st.loops (begun g { st with w := (runSer M.o st.w s0).1 })
      have hw : (begun g { st with w := (runSer M.o st.w s0).1 }).w = (runSer M.o st.w s0).1 := by
        unfold begun; split <;> rfl
      rw [hw] at e2 h2
      have hrange := fun r (h : Lp M P (frame none g) kn en body (xs st.loops) (begun g { st with w := (runSer M.o st.w s0).1 }) r st2) =>
        ex_range (k := kn) (v := en) (body := body) (ev_var (M := M) (P := P) (st := { st with w := (runSer M.o st.w s0).1 }) (frame_r none g)) (hv _) h
      cases hr2 : (runSer M.o (runSer M.o st.w s0).1 (items ord)).2 with
      | none =>
        rw [hr2] at h2
        refine ⟨ord, { st2 with w := (runSer M.o st2.w (writeLong M.byteWriter 0, true)).1 }, ?_, ?_⟩
        · rw [if_neg h0, runSer_then_ok hr, runSer_then_ok hr2, e2]
        · rw [if_neg h0, runSer_then_ok hr, runSer_then_ok hr2, ← e2]
          exact bl_next hdef (bl_next (ex_cond_false hor) (bl_next (hrange _ h2) (ret_long 0 st2)))
      | some e =>
        rw [hr2] at h2
        refine ⟨ord, st2, ?_, ?_⟩
        · rw [if_neg h0, runSer_then_ok hr, runSer_then_err hr2, e2]
        · rw [if_neg h0, runSer_then_ok hr, runSer_then_err hr2, hr2]
          exact bl_next hdef (bl_next (ex_cond_false hor) (bl_ret (hrange _ h2)))

end
end Verif
