import Verif.Gen.CodeRun
import Verif.Parser.Resolve
/-
The generated serializers do what `ser` says.
-/
namespace Verif
open Spec.Go
set_option linter.unusedSimpArgs false
set_option linter.unusedSectionVars false

section
variable {W : Type} {M : Machine W} {P : Package} {nm : Namer} {n : NS}

/-- The serializer of `t`, called with `g`, does what `ser` says of `v`, with some order of the maps. -/
def RunsAs (M : Machine W) (P : Package) (nm : Namer) (n : NS) (g : Value) (v : Val) (t : PTy) : Prop :=
  ∀ (st : World W) (p : List Nat), ∃ ord st1,
    Does M P (t.serializer nm n) [g, .writer] st (ser n.env M.byteWriter ord v t.erase p) st1

/-- A function of the package. -/
theorem does_own {name : Str} {ty : GoTy} {body : List Stmt} {g : Value} {st st1 : World W} {s : SerOut}
    (hf : P.funcs (writeName name) = some (writeFunc name ty body)) (e : st1.w = (runSer M.o st.w s).1)
    (hb : Bl M P (start g) body st (.ret [.error (runSer M.o st.w s).2]) st1) :
    Does M P (.own (writeName name)) [g, .writer] st s st1 :=
  ⟨e, _, hf, returns_of (bind_start g) hb⟩

/-! Arrays -/

theorem pre_e (v : Value) : Harmless [("e".toList, v)] := by
  have h1 : ("err".toList == "e".toList) = false := by decide +kernel
  have h2 : ("w".toList == "e".toList) = false := by decide +kernel
  have h3 : ("r".toList == "e".toList) = false := by decide +kernel
  have h4 : ("vm".toList == "e".toList) = false := by decide +kernel
  simp only [Harmless, List.lookup_cons, h1, h2, h3, h4, List.lookup_nil, and_self]

theorem pre_ek (v k : Value) : Harmless [("e".toList, v), ("k".toList, k)] := by
  have h1 : ("err".toList == "e".toList) = false := by decide +kernel
  have h2 : ("w".toList == "e".toList) = false := by decide +kernel
  have h3 : ("r".toList == "e".toList) = false := by decide +kernel
  have h4 : ("vm".toList == "e".toList) = false := by decide +kernel
  have h5 : ("err".toList == "k".toList) = false := by decide +kernel
  have h6 : ("w".toList == "k".toList) = false := by decide +kernel
  have h7 : ("r".toList == "k".toList) = false := by decide +kernel
  have h8 : ("vm".toList == "k".toList) = false := by decide +kernel
  simp only [Harmless, List.lookup_cons, h1, h2, h3, h4, h5, h6, h7, h8, List.lookup_nil, and_self]

theorem bind_e (i v g : Value) : Spec.Go.bind ["_".toList, "e".toList] [i, v] (frame none g) = some ([("e".toList, v)] ++ frame none g) := by
  have h1 : ("e".toList = "_".toList) = False := by rw [eq_iff_iff, iff_false]; decide +kernel
  simp only [Spec.Go.bind, h1, if_false, if_true, List.singleton_append]

theorem bind_ek (k v g : Value) : Spec.Go.bind ["k".toList, "e".toList] [k, v] (frame none g) =
    some ([("e".toList, v), ("k".toList, k)] ++ frame none g) := by
  have h1 : ("e".toList = "_".toList) = False := by rw [eq_iff_iff, iff_false]; decide +kernel
  have h2 : ("k".toList = "_".toList) = False := by rw [eq_iff_iff, iff_false]; decide +kernel
  simp only [Spec.Go.bind, h1, h2, if_false, List.cons_append, List.nil_append]

theorem ev_e (v : Value) (l : Locals) (st : World W) : Ev M P ((("e".toList, v) :: l)) vE st [v] st :=
  ev_var (by simp only [List.lookup_cons, BEq.rfl])

theorem ev_k (k v : Value) (l : Locals) (st : World W) : Ev M P (("e".toList, v) :: ("k".toList, k) :: l) vK st [k] st := by
  have h : ("k".toList == "e".toList) = false := by decide +kernel
  exact ev_var (by simp only [List.lookup_cons, h, BEq.rfl])

theorem zipIdx_range (gs : List Value) : (gs.zipIdx.map fun x => ((Value.int (BitVec.ofNat 64 x.2), x.1) : Value × Value)) =
    (List.range gs.length).map fun i => (.int (BitVec.ofNat 64 i), (gs[i]?).getD .nil) := by
  refine List.ext_getElem? fun i => ?_
  simp only [List.getElem?_map, List.getElem?_zipIdx, List.getElem?_range]
  by_cases h : i < gs.length
  · simp [h, List.getElem?_eq_getElem h, List.getElem?_range]
  · simp [h, List.getElem?_eq_none (Nat.le_of_not_lt h), List.getElem?_range]

theorem empty_iff {α : Type} (l : List α) : (l.isEmpty = true) = (l.length = 0) := by cases l <;> simp

theorem array_runs {gs : List Value} {vs : List Val} {item : PTy} {d : Json} (hl : gs.length = vs.length) (hlen : vs.length < 2 ^ 63)
    (hh : Has P nm n (.array item d)) (hi : ∀ (i : Nat) g v, gs[i]? = some g → vs[i]? = some v → RunsAs M P nm n g v item) :
    RunsAs M P nm n (.slice gs) (.array vs) (.array item d) := by
  intro st p
  have hf := hh.func _ rfl
  have key := counted_runs (M := M) (P := P) (g := .slice gs) (k := vs.length) (kn := "_".toList) (en := "e".toList)
    (body := [.assign ["err".toList] (.call (item.serializer nm n) [vE, vW]), errCheck]) (st := st)
    (xs := fun _ => (List.range gs.length).map fun i => (.int (BitVec.ofNat 64 i), (gs[i]?).getD .nil))
    (items := fun ord => serAll (serItems n.env M.byteWriter ord vs item.erase 0 p))
    (by simp only [Spec.Go.length, hl]) hlen (fun l => by simp only [visits, zipIdx_range]) (by
      intro _ l st
      obtain ⟨ords, st1, e1, h1⟩ := loop_runs (M := M) (P := P) (g := .slice gs) (k := "_".toList) (v := "e".toList)
        (body := [.assign ["err".toList] (.call (item.serializer nm n) [vE, vW]), errCheck])
        (fun i => (.int (BitVec.ofNat 64 i), (gs[i]?).getD .nil)) (fun i => [("e".toList, (gs[i]?).getD .nil)])
        (fun i ord => ser n.env M.byteWriter ord ((vs[i]?).getD .null) item.erase (i :: p)) (fun i => bind_e _ _ _)
        (List.range gs.length) List.nodup_range (by
          intro i hir st
          have hig : i < gs.length := List.mem_range.1 hir
          have hiv : i < vs.length := hl ▸ hig
          obtain ⟨ord, st1, hd⟩ := hi i _ _ (List.getElem?_eq_getElem hig) (List.getElem?_eq_getElem hiv) st (i :: p)
          refine ⟨ord, ?_⟩
          rw [List.getElem?_eq_getElem hig, List.getElem?_eq_getElem hiv]
          exact body_call (pre_e _) (serializer_vm nm n item) (ev_e _ _ _) hd) st
      refine ⟨MapOrder.combine p .id ords, st1, ?_⟩
      have hs : serItems n.env M.byteWriter (MapOrder.combine p .id ords) vs item.erase 0 p =
          (List.range gs.length).map fun i => ser n.env M.byteWriter (ords i) ((vs[i]?).getD .null) item.erase (i :: p) := by
        refine List.ext_getElem? fun i => ?_
        rw [serItems_get, List.getElem?_map]
        by_cases h : i < vs.length
        · rw [List.getElem?_eq_getElem h, List.getElem?_range (by omega)]
          simp only [Option.map_some, List.getElem?_eq_getElem h, Option.getD_some, Nat.zero_add]
          rw [ser_below _ _ _ _ _ _ _ (combine_part p .id ords i)]
        · rw [List.getElem?_eq_none (by omega), List.getElem?_eq_none (by simpa using by omega)]; rfl
      rw [hs]
      exact ⟨e1, h1⟩)
  obtain ⟨ord, st1, e1, h1⟩ := key
  refine ⟨ord, st1, does_own hf ?_ ?_⟩
  · simpa only [PTy.erase, ser, empty_iff] using e1
  · simpa only [PTy.erase, ser, empty_iff] using h1

/-! Maps -/

theorem perm_lt {k len : Nat} : ∀ i ∈ M.order k len, i < len := by
  intro i hi
  exact List.mem_range.1 ((M.orderPerm k len).mem_iff.1 hi)

theorem filterMap_some {α β : Type} {f : α → Option β} {g : α → β} : ∀ {l : List α}, (∀ a ∈ l, f a = some (g a)) → l.filterMap f = l.map g
  | [], _ => rfl
  | a :: l, h => by
    rw [List.filterMap_cons, h a (by simp)]
    simp only [List.map_cons]
    rw [filterMap_some fun b hb => h b (by simp [hb])]

theorem map_runs {gs : List (List Byte × Value)} {es : List (List Byte × Val)} {item : PTy} {d : Json} (hl : gs.length = es.length)
    (hlen : es.length < 2 ^ 63) (hh : Has P nm n (.map item d))
    (hi : ∀ (i : Nat) g e, gs[i]? = some g → es[i]? = some e → g.1 = e.1 ∧ RunsAs M P nm n g.2 e.2 item) :
    RunsAs M P nm n (.dict gs) (.map es) (.map item d) := by
  intro st p
  have hf := hh.func _ rfl
  let kv : Nat → Value × Value := fun i => (.str ((gs[i]?).getD ([], .nil)).1, ((gs[i]?).getD ([], .nil)).2)
  let out : Nat → MapOrder → SerOut := fun i ord =>
    SerOut.andThen (writeString M.byteWriter ((es[i]?).getD ([], .null)).1, true)
      (ser n.env M.byteWriter ord ((es[i]?).getD ([], .null)).2 item.erase (i :: p))
  have key := counted_runs (M := M) (P := P) (g := .dict gs) (k := es.length) (kn := "k".toList) (en := "e".toList)
    (body := [.assign ["err".toList] (vmCall "WriteString" vK), errCheck,
        .assign ["err".toList] (.call (item.serializer nm n) [vE, vW]), errCheck]) (st := st)
    (xs := fun l => (M.order l gs.length).map kv)
    (items := fun ord => serAll (ord.perm p (serEntries n.env M.byteWriter ord es item.erase 0 p)))
    (by simp only [Spec.Go.length, hl]) hlen (fun l => by
      simp only [visits]
      congr 1
      exact filterMap_some fun i hi => by rw [List.getElem?_eq_getElem (perm_lt i hi)]; simp only [kv, List.getElem?_eq_getElem (perm_lt i hi), Option.map_some, Option.getD_some]) (by
      intro _ l st
      obtain ⟨ords, st1, e1, h1⟩ := loop_runs (M := M) (P := P) (g := .dict gs) (k := "k".toList) (v := "e".toList)
        (body := [.assign ["err".toList] (vmCall "WriteString" vK), errCheck,
          .assign ["err".toList] (.call (item.serializer nm n) [vE, vW]), errCheck])
        kv (fun i => [("e".toList, (kv i).2), ("k".toList, (kv i).1)])
        out (fun i => bind_ek _ _ _)
        (M.order l gs.length) ((M.orderPerm l gs.length).nodup_iff.2 List.nodup_range) (by
          intro i hir st
          have hig : i < gs.length := perm_lt i hir
          have hiv : i < es.length := hl ▸ hig
          obtain ⟨hk, hr⟩ := hi i _ _ (List.getElem?_eq_getElem hig) (List.getElem?_eq_getElem hiv)
          simp only [kv, out, List.getElem?_eq_getElem hig, List.getElem?_eq_getElem hiv, Option.getD_some]
          rw [← hk]
          refine Steps.andThen (ss := [_, _]) (ss' := [_, _]) MapOrder.id
            (body_call (pre_ek _ _) (fun x y h => by cases h; rfl) (ev_k _ _ _ _) (does_vm st (vm_string _ _))) ?_
          intro st
          obtain ⟨ord, st1, hd⟩ := hr st (i :: p)
          exact ⟨ord, body_call (pre_ek _ _) (serializer_vm nm n item) (ev_e _ _ _) hd⟩) st
      refine ⟨MapOrder.combine p (.always (M.order l) (M.orderPerm l)) ords, st1, ?_⟩
      have hs : (MapOrder.combine p (.always (M.order l) (M.orderPerm l)) ords).perm p (serEntries n.env M.byteWriter
            (MapOrder.combine p (.always (M.order l) (M.orderPerm l)) ords) es item.erase 0 p) =
          (M.order l gs.length).map fun i => out i (ords i) := by
        have hlen' : (serEntries n.env M.byteWriter (MapOrder.combine p (.always (M.order l) (M.orderPerm l)) ords) es item.erase 0 p).length
            = gs.length := by
          have h1 : ∀ i, (serEntries n.env M.byteWriter (MapOrder.combine p (.always (M.order l) (M.orderPerm l)) ords) es item.erase 0 p)[i]? = none
              ↔ es[i]? = none := fun i => by rw [serEntries_get]; cases es[i]? <;> simp
          simp only [List.getElem?_eq_none_iff] at h1
          have ha := (h1 es.length).2 (Nat.le_refl _)
          have hb := (h1 _).1 (Nat.le_refl _)
          omega
        unfold MapOrder.perm
        rw [hlen', combine_own]
        simp only [MapOrder.always]
        refine filterMap_some fun i hir => ?_
        have hiv : i < es.length := hl ▸ perm_lt i hir
        rw [serEntries_get, List.getElem?_eq_getElem hiv]
        simp only [out, List.getElem?_eq_getElem hiv, Option.map_some, Option.getD_some, Nat.zero_add]
        rw [ser_below _ _ _ _ _ _ _ (combine_part p _ ords i)]
      rw [hs]
      exact ⟨e1, h1⟩)
  obtain ⟨ord, st1, e1, h1⟩ := key
  refine ⟨ord, st1, does_own hf ?_ ?_⟩
  · simpa only [PTy.erase, ser, empty_iff] using e1
  · simpa only [PTy.erase, ser, empty_iff] using h1

/-! Records -/

/-- Agreement from one field on. -/
theorem serFields_from (env : Env) (bw : Bool) (a b : MapOrder) : ∀ (vs : List Val) (fs : List Field) (i : Nat) (p : List Nat),
    (∀ j, i ≤ j → SameBelow (j :: p) a b) → serFields env bw a vs fs i p = serFields env bw b vs fs i p
  | [], fs, _, _, _ => by cases fs <;> rfl
  | v :: vs, fs, i, p, h => by
    cases fs with
    | nil => rfl
    | cons f fs =>
      simp only [serFields]
      rw [ser_below env bw a b v f.ty _ (h i (Nat.le_refl _)), serFields_from env bw a b vs fs (i + 1) p fun j hj => h j (by omega)]

theorem sameBelow_trans {p : List Nat} {a b c : MapOrder} (h : SameBelow p a b) (h' : SameBelow p c b) : SameBelow p a c :=
  fun q k => (h q k).trans (h' q k).symm

/-- What the statements of a record do. -/
def FieldsRun (M : Machine W) (P : Package) (nm : Namer) (n : NS) (g : Value) (vs : List Val) (ps : List PField) : Prop :=
  ∀ (st : World W) (i : Nat) (p : List Nat), ∃ ords : Nat → MapOrder,
    Steps M P (frame none g) (fieldStmts nm n ps) st
      (serFields n.env M.byteWriter (MapOrder.combine p .id ords) vs (ps.map PField.erase) i p)

theorem fields_nil (g : Value) : FieldsRun M P nm n g [] [] := by
  intro st i p
  refine ⟨fun _ => .id, st, rfl, ?_⟩
  intro rest r st2 h
  exact h

theorem fields_cons {g m : Value} {v : Val} {vs : List Val} {f : PField} {ps : List PField} (hm : member (fieldGoName nm f.name) g = some m)
    (hr : RunsAs M P nm n m v f.ty) (hs : FieldsRun M P nm n g vs ps) : FieldsRun M P nm n g (v :: vs) (f :: ps) := by
  intro st i p
  obtain ⟨ord, st1, hd⟩ := hr st (i :: p)
  have h1 : Steps M P ([] ++ frame none g)
      [.assign ["err".toList] (.call (f.ty.serializer nm n) [.sel vR (fieldGoName nm f.name), vW]), errCheck] st
      (ser n.env M.byteWriter ord v f.ty.erase (i :: p)) :=
    body_call (pre := []) ⟨rfl, rfl, rfl, rfl⟩ (serializer_vm nm n f.ty) (ev_sel (ev_var (frame_r none g)) hm) hd
  obtain ⟨ords, hb⟩ := Steps.andThen (α := Nat → MapOrder) (fun _ => .id) h1 (fun st => hs st (i + 1) p)
  refine ⟨fun j => if j = i then ord else ords j, ?_⟩
  have e : serFields n.env M.byteWriter (MapOrder.combine p .id fun j => if j = i then ord else ords j) (v :: vs)
      ((f :: ps).map PField.erase) i p = SerOut.andThen (ser n.env M.byteWriter ord v f.ty.erase (i :: p))
        (serFields n.env M.byteWriter (MapOrder.combine p .id ords) vs (ps.map PField.erase) (i + 1) p) := by
    simp only [List.map_cons, serFields]
    rw [show (PField.erase f).ty = f.ty.erase from rfl]
    have h0 := combine_part p .id (fun j => if j = i then ord else ords j) i
    rw [if_pos rfl] at h0
    rw [ser_below _ _ _ _ _ _ _ h0]
    congr 1
    refine serFields_from _ _ _ _ _ _ _ _ fun j hj => ?_
    have h1 := combine_part p .id (fun j => if j = i then ord else ords j) j
    rw [if_neg (by omega)] at h1
    exact sameBelow_trans h1 (combine_part p .id ords j)
  rw [e]
  exact hb

theorem record_runs {fs : List (Str × Value)} {vs : List Val} {ps : List PField} {q : QName} {d : PDef} {doc : Str}
    (hq : n.find q = some d) (hk : d.kind = .record ps doc) (hh : Has P nm n (.ref q)) (hr : FieldsRun M P nm n (.struct fs) vs ps) :
    RunsAs M P nm n (.struct fs) (.record vs) (.ref q) := by
  intro st p
  have hf := hh.func (recordFunc nm n (d.goName nm) ps) (by simp only [PTy.writer, hq, Option.map_some, PDef.writer, hk])
  obtain ⟨ords, st1, e1, h1⟩ := hr st 0 p
  refine ⟨MapOrder.combine p .id ords, st1, ?_⟩
  have hn : (PTy.ref q).goName nm n = d.goName nm := by simp only [PTy.goName, hq]
  have hser : ser n.env M.byteWriter (MapOrder.combine p .id ords) (.record vs) (PTy.ref q).erase p =
      serFields n.env M.byteWriter (MapOrder.combine p .id ords) vs (ps.map PField.erase) 0 p := by
    simp only [PTy.erase, ser, env_find, hq, Option.map_some, PDef.erase, hk]
  simp only [PTy.serializer, hn]
  rw [hser]
  refine does_own hf e1 (bl_next (ex_declare _) ?_)
  show Bl M P (frame none (.struct fs)) _ _ _ _
  cases hs : (runSer M.o st.w (serFields n.env M.byteWriter (MapOrder.combine p .id ords) vs (ps.map PField.erase) 0 p)).2 with
  | none =>
    rw [hs] at h1
    exact h1 _ _ _ (bl_ret (ex_ret (ev_var (frame_err none _))))
  | some e =>
    rw [hs] at h1
    exact h1 _

/-! Enums and fixed -/

theorem enum_runs {x : BitVec 32} {q : QName} {d : PDef} {ss : List Str} {doc dflt : Str} (hq : n.find q = some d)
    (hk : d.kind = .enum ss doc dflt) (hh : Has P nm n (.ref q)) : RunsAs M P nm n (.int32 x) (.enum x) (.ref q) := by
  intro st p
  have hf := hh.func (enumFunc (d.goName nm)) (by simp only [PTy.writer, hq, Option.map_some, PDef.writer, hk])
  have hn : (PTy.ref q).goName nm n = d.goName nm := by simp only [PTy.goName, hq]
  have hc : convert "int32".toList (.int32 x) = some (.int32 x) := by
    have h1 : ("int32".toList = "int64".toList) = False := by rw [eq_iff_iff, iff_false]; decide +kernel
    simp only [convert, h1, if_false, if_true]
  refine ⟨.id, { st with w := (runSer M.o st.w (writeInt M.byteWriter x, true)).1 }, ?_⟩
  simp only [PTy.serializer, hn, PTy.erase, ser]
  refine does_own hf rfl (bl_ret (ex_ret (ev_call (evs_cons (ev_conv (ev_var (start_r _)) hc) (evs_cons (ev_var (start_w _)) evs_nil))
    (fun x y h => by cases h; exact start_vm _) (does_vm st (vm_int _ _)).2)))

theorem fixed_runs {x : List Byte} {q : QName} {d : PDef} {size : Int} (hq : n.find q = some d)
    (hk : d.kind = .fixed size) (hh : Has P nm n (.ref q)) : RunsAs M P nm n (.bytes x) (.fixed x) (.ref q) := by
  intro st p
  have hf := hh.func (fixedFunc (d.goName nm)) (by simp only [PTy.writer, hq, Option.map_some, PDef.writer, hk])
  have hn : (PTy.ref q).goName nm n = d.goName nm := by simp only [PTy.goName, hq]
  refine ⟨.id, (put M [x] st).1, ?_⟩
  simp only [PTy.serializer, hn, PTy.erase, ser]
  refine does_own hf rfl ?_
  have hc : outside M "w".toList "Write".toList ((start (.bytes x)).lookup "w".toList) [.bytes x] st =
      some ([.int (BitVec.ofNat 64 x.length), .error (put M [x] st).2], (put M [x] st).1) := by
    rw [start_w]; simp only [outside, if_true]
  have hb : Spec.Go.bind ["_".toList, "err".toList] [.int (BitVec.ofNat 64 x.length), .error (put M [x] st).2] (start (.bytes x)) =
      some (frame (put M [x] st).2 (.bytes x)) := by
    simp only [Spec.Go.bind, err_name, if_false, if_true, start, frame]
  exact bl_next (ex_define (ev_method (evs_cons (ev_all (ev_var (start_r _))) evs_nil) hc) hb)
    (bl_ret (ex_ret (ev_var (frame_err _ _))))

/-! Unions -/

theorem nullTy_erase (t : PTy) : t.erase.isNull = nullTy t := by
  cases t with
  | prim p d => cases p <;> rfl
  | _ => rfl

theorem nullAt_eq : ∀ (ts : List PTy) (i : Nat), nullAt i ts = (ts.findIdx? nullTy).map (· + i)
  | [], _ => rfl
  | t :: ts, i => by
    rw [nullAt, List.findIdx?_cons]
    cases h : nullTy t with
    | true => simp
    | false =>
      simp only [Bool.false_eq_true, if_false]
      rw [nullAt_eq ts (i + 1), Option.map_map]
      congr 1; funext j; simp only [Function.comp]; omega

theorem nullIndexFrom_erase : ∀ (ts : List PTy) (i : Nat), nullIndexFrom i (PTy.erases ts) = nullAt i ts
  | [], _ => rfl
  | t :: ts, i => by
    rw [PTy.erases, nullIndexFrom, nullAt, nullTy_erase, nullIndexFrom_erase ts]

theorem nullAt_zero (ts : List PTy) : nullAt 0 ts = ts.findIdx? nullTy := by
  rw [nullAt_eq]; cases ts.findIdx? nullTy <;> rfl

theorem nullIndex_erase (ts : List PTy) : nullIndex (PTy.erases ts) = ts.findIdx? nullTy := by
  rw [nullIndex, nullIndexFrom_erase, nullAt_zero]

theorem erases_get : ∀ (ts : List PTy) (i : Nat), (PTy.erases ts)[i]? = (ts[i]?).map PTy.erase
  | [], _ => rfl
  | t :: ts, 0 => rfl
  | t :: ts, i + 1 => by rw [PTy.erases]; simpa using erases_get ts i

theorem findIdx_any : ∀ (ts : List PTy), (ts.findIdx? nullTy).isSome = ts.any nullTy
  | [] => rfl
  | t :: ts => by
    rw [List.findIdx?_cons, List.any_cons, ← findIdx_any ts]
    cases nullTy t <;> simp

/-- A long name is none of the variables. -/
theorem frame_long {e : Option WErr} {g : Value} {x : Str} (h : 4 ≤ x.length) : (frame e g).lookup x = none := by
  have h1 : (x == "err".toList) = false := by rw [beq_eq_false_iff_ne]; rintro rfl; revert h; decide +kernel
  have h2 : (x == "w".toList) = false := by rw [beq_eq_false_iff_ne]; rintro rfl; revert h; decide +kernel
  have h3 : (x == "r".toList) = false := by rw [beq_eq_false_iff_ne]; rintro rfl; revert h; decide +kernel
  simp only [frame, List.lookup_cons, h1, h2, h3, List.lookup_nil]

theorem const_long (name m : Str) : 4 ≤ (unionEnumType name ++ m).length := by
  have : ("TypeEnum".toList).length = 8 := by decide +kernel
  simp only [unionEnumType, List.length_append, this]; omega

theorem ofNat_ne {a b : Nat} (ha : a < 2 ^ 63) (hb : b < 2 ^ 64) (h : a ≠ b) : BitVec.ofNat 64 b ≠ BitVec.ofNat 64 a := by
  intro e
  have := congrArg BitVec.toNat e
  simp only [BitVec.toNat_ofNat] at this
  omega

/-- The constants of the members that are left, from position `i`. -/
def ConstsFrom (P : Package) (nm : Namer) (n : NS) (name : Str) (null : Option Nat) (i : Nat) (ts : List PTy) : Prop :=
  ∀ k u, ts[k]? = some u → null ≠ some (i + k) →
    P.consts (unionEnumType name ++ u.goName nm n) = some (.int (BitVec.ofNat 64 (i + k)))

theorem ConstsFrom.tail {name : Str} {null : Option Nat} {i : Nat} {t : PTy} {ts : List PTy}
    (h : ConstsFrom P nm n name null i (t :: ts)) : ConstsFrom P nm n name null (i + 1) ts := by
  intro k u hk hn
  have := h (k + 1) u (by simpa using hk) (by rw [show i + (k + 1) = i + 1 + k by omega]; exact hn)
  rwa [show i + (k + 1) = i + 1 + k by omega] at this

theorem case_const {name : Str} {null : Option Nat} {i : Nat} {t : PTy} {ts : List PTy} {g : Value} {st : World W}
    (h : ConstsFrom P nm n name null i (t :: ts)) (hn : null ≠ some i) :
    Ev M P (frame none g) (.var (unionEnumType name ++ t.goName nm n)) st [.int (BitVec.ofNat 64 i)] st :=
  ev_const (frame_long (const_long _ _)) (h 0 t rfl hn)

theorem cases_miss {name : Str} {null : Option Nat} {g : Value} {tag : BitVec 64} {st : World W} :
    ∀ (ts : List PTy) (i : Nat), i + ts.length < 2 ^ 63 → ConstsFrom P nm n name null i ts →
      (∀ k, k < ts.length → tag.toNat = i + k → null = some (i + k)) →
      Ch M P (frame none g) (.int tag) (unionCases nm n (unionEnumType name) null i ts) st (.next (frame none g)) st
  | [], _, _, _, _ => ch_nil
  | t :: ts, i, hb, hc, hm => by
    simp only [List.length_cons] at hb hm
    have ih := cases_miss (g := g) (tag := tag) (st := st) ts (i + 1) (by omega) hc.tail
      (fun k hk e => by have := hm (k + 1) (by omega) (by omega); rw [this]; congr 1; omega)
    rw [unionCases]
    by_cases h0 : null = some i
    · rw [if_pos h0]; exact ih
    · rw [if_neg h0]
      refine ch_miss (case_const hc h0) ?_ ih
      have hne : tag ≠ BitVec.ofNat 64 i := by
        rintro rfl
        refine h0 (hm 0 (by omega) ?_)
        rw [BitVec.toNat_ofNat]; omega
      simp only [same, decide_eq_false hne]

theorem cases_hit {name : Str} {null : Option Nat} {g : Value} {tag : BitVec 64} {st st1 : World W} {u : PTy} {vs : List Value} :
    ∀ (ts : List PTy) (i k : Nat), i + ts.length < 2 ^ 63 → ConstsFrom P nm n name null i ts → ts[k]? = some u → tag.toNat = i + k →
      null ≠ some (i + k) → Ev M P (frame none g) (.call (u.serializer nm n) [.sel vR (u.goName nm n), vW]) st vs st1 →
      Ch M P (frame none g) (.int tag) (unionCases nm n (unionEnumType name) null i ts) st (.ret vs) st1
  | [], _, _, _, _, h, _, _, _ => by cases h
  | t :: ts, i, 0, hb, hc, hk, ht, hn, he => by
    cases hk
    rw [Nat.add_zero] at hn
    rw [unionCases, if_neg hn]
    refine ch_hit (r := .ret vs) (case_const hc hn) ?_ (bl_ret (ex_ret he))
    have : tag = BitVec.ofNat 64 i := BitVec.eq_of_toNat_eq (by
      simp only [List.length_cons] at hb
      rw [BitVec.toNat_ofNat]; omega)
    simp only [same, decide_eq_true this]
  | t :: ts, i, k + 1, hb, hc, hk, ht, hn, he => by
    simp only [List.length_cons] at hb
    have hk' : ts[k]? = some u := by simpa using hk
    have hlt : k < ts.length := (List.getElem?_eq_some_iff.1 hk').1
    have ih := cases_hit (g := g) (tag := tag) (st := st) ts (i + 1) k (by omega) hc.tail hk' (by omega)
      (by rw [show i + 1 + k = i + (k + 1) by omega]; exact hn) he
    rw [unionCases]
    by_cases h0 : null = some i
    · rw [if_pos h0]; exact ih
    · rw [if_neg h0]
      refine ch_miss (case_const hc h0) ?_ ih
      have hne : tag ≠ BitVec.ofNat 64 i := by
        rintro rfl
        rw [BitVec.toNat_ofNat] at ht; omega
      simp only [same, decide_eq_false hne]

theorem nil_runs {name : Str} {ts : List PTy} {d : List Json} (hn : ts.any nullTy = true) (hh : Has P nm n (.union name ts d)) :
    RunsAs M P nm n .nil .nil (.union name ts d) := by
  intro st p
  have hf := hh.func _ rfl
  rw [← findIdx_any] at hn
  obtain ⟨i, hi⟩ := Option.isSome_iff_exists.1 hn
  have hser : ser n.env M.byteWriter .id .nil (PTy.union name ts d).erase p = (writeLong M.byteWriter (BitVec.ofNat 64 i), true) := by
    simp only [PTy.erase, ser, nullIndex_erase, hi]
  refine ⟨.id, { st with w := (runSer M.o st.w (writeLong M.byteWriter (BitVec.ofNat 64 i), true)).1 }, ?_⟩
  rw [hser]
  refine does_own hf rfl ?_
  rw [nullAt_zero, hi]
  exact bl_ret (ex_cond_true (r := .ret _) (ev_eq (ev_var (start_r _)) ev_nil rfl)
    (bl_next (define_long (ev_num i)) (bl_ret (ex_ret (ev_var (frame_err _ _))))))

theorem union_runs {name : Str} {ts : List PTy} {d : List Json} {fs : List (Str × Value)} {tag : BitVec 64} {v : Val}
    (hlen : ts.length < 2 ^ 63) (hh : Has P nm n (.union name ts d)) (htag : fs.lookup "UnionType".toList = some (.int tag))
    (hm : ∀ u, ts[tag.toNat]? = some u → ts.findIdx? nullTy ≠ some tag.toNat → ∃ m, fs.lookup (u.goName nm n) = some m ∧ RunsAs M P nm n m v u) :
    RunsAs M P nm n (if ts.any nullTy then .ptr (.struct fs) else .struct fs) (.union tag (some v)) (.union name ts d) := by
  intro st p
  have hf := hh.func _ rfl
  have hmem : ∀ f, member f (if ts.any nullTy then .ptr (.struct fs) else .struct fs) = fs.lookup f := by
    intro f; split <;> rfl
  generalize hg : (if ts.any nullTy then Value.ptr (.struct fs) else .struct fs) = g at hmem
  have hnull : ∀ (ss : List Stmt) (r : Flow) (st1 : World W), Bl M P (start g) ss st r st1 →
      Bl M P (start g) (unionNull (nullAt 0 ts) ++ ss) st r st1 := by
    intro ss r st1 h
    rw [nullAt_zero]
    cases hi : ts.findIdx? nullTy with
    | none => exact h
    | some i =>
      have : ts.any nullTy = true := by rw [← findIdx_any, hi]; rfl
      rw [if_pos this] at hg
      subst hg
      exact bl_next (ex_cond_false (ev_eq (ev_var (start_r _)) ev_nil rfl)) h
  have hconv : convert "int64".toList (.int tag) = some (.int tag) := by simp only [convert, if_true]
  have hsel := hmem "UnionType".toList
  rw [htag] at hsel
  have hdef := define_long (M := M) (P := P) (st := st) (ev_conv (ev_sel (ev_var (start_r g)) hsel) hconv)
  have hconsts : ConstsFrom P nm n ((PTy.union name ts d).goName nm n) (ts.findIdx? nullTy) 0 ts := by
    intro k u hk hn
    rw [Nat.zero_add] at hn ⊢
    exact hh.consts name ts d rfl k u hk hn
  have hser : ∀ ord, ser n.env M.byteWriter ord (.union tag (some v)) (PTy.union name ts d).erase p =
      SerOut.andThen (writeLong M.byteWriter tag, true) (match ts[tag.toNat]? with
        | none => ([], false)
        | some u => if ts.findIdx? nullTy = some tag.toNat then ([], false) else ser n.env M.byteWriter ord v u.erase (0 :: p)) := by
    intro ord
    simp only [PTy.erase, ser, nullIndex_erase, erases_get]
    congr 1
    by_cases h0 : 0 ≤ tag.toInt
    · have : tag.toInt.toNat = tag.toNat := by
        rw [BitVec.toInt_eq_toNat_cond] at h0 ⊢
        split at h0
        · rename_i h; rw [if_pos h]; omega
        · have := tag.isLt; omega
      rw [if_pos h0, this]
      cases ts[tag.toNat]? <;> rfl
    · rw [if_neg h0]
      have : ts.length ≤ tag.toNat := by
        rw [BitVec.toInt_eq_toNat_cond] at h0
        split at h0
        · omega
        · omega
      rw [List.getElem?_eq_none this]
  have hinv : ∀ w, runSer M.o w ([], false) = (w, some .invalid) := fun w => rfl
  simp only [hser]
  generalize hs0 : (writeLong M.byteWriter tag, true) = s0 at hdef
  cases hr : (runSer M.o st.w s0).2 with
  | some e =>
    rw [hr] at hdef
    refine ⟨.id, { st with w := (runSer M.o st.w s0).1 }, does_own hf ?_ ?_⟩
    · rw [runSer_then_err hr]
    · rw [runSer_then_err hr, hr]
      exact hnull _ _ _ (bl_next hdef (bl_ret (check_err (frame_err _ _))))
  | none =>
    rw [hr] at hdef
    have hmiss : (∀ k, k < ts.length → tag.toNat = 0 + k → ts.findIdx? nullTy = some (0 + k)) →
        ∃ st1 : World W, st1.w = (runSer M.o st.w (SerOut.andThen s0 ([], false))).1 ∧
        Does M P (.own (writeName ((PTy.union name ts d).goName nm n))) [g, .writer] st (SerOut.andThen s0 ([], false)) st1 := by
      intro hk
      refine ⟨{ st with w := (runSer M.o st.w s0).1 }, ?_, does_own hf ?_ ?_⟩
      · rw [runSer_then_ok hr, hinv]
      · rw [runSer_then_ok hr, hinv]
      · rw [runSer_then_ok hr, hinv]
        refine hnull _ _ _ (bl_next hdef (bl_next (check_ok (frame_err _ _)) (bl_next
          (ex_switch (ev_sel (ev_var (frame_r none g)) hsel) (cases_miss (g := g) ts 0 (by omega) (nullAt_zero ts ▸ hconsts)
            (nullAt_zero ts ▸ hk)))
          (bl_ret (ex_ret (ev_call (evs_cons (ev_text _) evs_nil) (fun x y h => by cases h; exact frame_fmt _ _) ?_))))))
        have h1 : ("fmt".toList = "vm".toList) = False := by rw [eq_iff_iff, iff_false]; decide +kernel
        simp only [Cl, outside, h1, if_false, and_self, if_true]
    cases hu : ts[tag.toNat]? with
    | none =>
      obtain ⟨st1, _, h⟩ := hmiss fun k hk e => by
        rw [List.getElem?_eq_none_iff] at hu; omega
      exact ⟨.id, st1, h⟩
    | some u =>
      by_cases hnl : ts.findIdx? nullTy = some tag.toNat
      · obtain ⟨st1, _, h⟩ := hmiss fun k hk e => by rw [hnl, e]
        refine ⟨.id, st1, ?_⟩
        simp only [if_pos hnl]
        exact h
      · obtain ⟨m, hlm, hrun⟩ := hm u hu hnl
        obtain ⟨ord, st2, e2, h2⟩ := hrun { st with w := (runSer M.o st.w s0).1 } (0 :: p)
        refine ⟨ord, st2, ?_⟩
        simp only [if_neg hnl]
        refine does_own hf ?_ ?_
        · rw [runSer_then_ok hr, e2]
        · rw [runSer_then_ok hr]
          refine hnull _ _ _ (bl_next hdef (bl_next (check_ok (frame_err _ _)) (bl_ret
            (ex_switch (ev_sel (ev_var (frame_r none g)) hsel) (cases_hit (g := g) ts 0 tag.toNat (by omega) (nullAt_zero ts ▸ hconsts) hu (by omega)
              (by rw [nullAt_zero, Nat.zero_add]; exact hnl) ?_)))))
          exact ev_call (evs_cons (ev_sel (ev_var (frame_r none g)) ((hmem _).trans hlm)) (evs_cons (ev_var (frame_w _ _)) evs_nil))
            (fun x y h => by rw [serializer_vm nm n u x y h]; exact frame_vm _ _) h2

/-! All types -/

theorem prim_runs {g : Value} {v : Val} {p : Prim} {d : Json} {tr : Trace} (hv : vmWrites M.byteWriter p.serializer g = some tr)
    (hs : ∀ ord path, ser n.env M.byteWriter ord v p.ty path = (tr, true)) : RunsAs M P nm n g v (.prim p d) := by
  intro st path
  refine ⟨.id, { st with w := (runSer M.o st.w (tr, true)).1 }, ?_⟩
  simp only [PTy.serializer, PTy.erase, hs]
  exact does_vm st hv

theorem vmp_null (bw : Bool) : vmWrites bw (Prim.null).serializer (.nil) = some (writeNull) := by
  rw [show (Prim.null).serializer = "WriteNull".toList from rfl]
  simp only [vmWrites, if_true]
theorem vmp_bool (bw : Bool) (x : Bool) : vmWrites bw (Prim.bool).serializer (.bool x) = some (writeBool x) := by
  rw [show (Prim.bool).serializer = "WriteBool".toList from rfl]
  simp only [vmWrites, if_true]
theorem vmp_int (bw : Bool) (x : BitVec 32) : vmWrites bw (Prim.int).serializer (.int32 x) = some (writeInt bw x) := by
  rw [show (Prim.int).serializer = "WriteInt".toList from rfl]
  simp only [vmWrites, if_true]
theorem vmp_long (bw : Bool) (x : BitVec 64) : vmWrites bw (Prim.long).serializer (.int x) = some (writeLong bw x) := by
  rw [show (Prim.long).serializer = "WriteLong".toList from rfl]
  simp only [vmWrites, if_true]
theorem vmp_float (bw : Bool) (x : BitVec 32) : vmWrites bw (Prim.float).serializer (.float32 x) = some (writeFloat bw x) := by
  rw [show (Prim.float).serializer = "WriteFloat".toList from rfl]
  simp only [vmWrites, if_true]
theorem vmp_double (bw : Bool) (x : BitVec 64) : vmWrites bw (Prim.double).serializer (.float64 x) = some (writeDouble bw x) := by
  rw [show (Prim.double).serializer = "WriteDouble".toList from rfl]
  simp only [vmWrites, if_true]
theorem vmp_bytes (bw : Bool) (x : List Byte) : vmWrites bw (Prim.bytes).serializer (.bytes x) = some (writeBytes bw x) := by
  rw [show (Prim.bytes).serializer = "WriteBytes".toList from rfl]
  simp only [vmWrites, if_true]
theorem vmp_string (bw : Bool) (x : List Byte) : vmWrites bw (Prim.string).serializer (.str x) = some (writeString bw x) := by
  rw [show (Prim.string).serializer = "WriteString".toList from rfl]
  simp only [vmWrites, if_true]

mutual
theorem runs : ∀ (v : Val) (g : Value) (t : PTy), Shows nm n g v t → (∀ u, Within n t u → Has P nm n u) → RunsAs M P nm n g v t
  | .null, g, t, h, _ => by
    obtain ⟨rfl, d, rfl⟩ := h
    exact prim_runs (p := .null) (vmp_null _) (fun _ _ => rfl)
  | .bool b, g, t, h, _ => by
    obtain ⟨rfl, d, rfl⟩ := h
    exact prim_runs (p := .bool) (vmp_bool _ _) (fun _ _ => rfl)
  | .int x, g, t, h, _ => by
    obtain ⟨rfl, d, rfl⟩ := h
    exact prim_runs (p := .int) (vmp_int _ _) (fun _ _ => rfl)
  | .long x, g, t, h, _ => by
    obtain ⟨rfl, d, rfl⟩ := h
    exact prim_runs (p := .long) (vmp_long _ _) (fun _ _ => rfl)
  | .float x, g, t, h, _ => by
    obtain ⟨rfl, d, rfl⟩ := h
    exact prim_runs (p := .float) (vmp_float _ _) (fun _ _ => rfl)
  | .double x, g, t, h, _ => by
    obtain ⟨rfl, d, rfl⟩ := h
    exact prim_runs (p := .double) (vmp_double _ _) (fun _ _ => rfl)
  | .bytes x, g, t, h, _ => by
    obtain ⟨rfl, d, rfl⟩ := h
    exact prim_runs (p := .bytes) (vmp_bytes _ _) (fun _ _ => rfl)
  | .string x, g, t, h, _ => by
    obtain ⟨rfl, d, rfl⟩ := h
    exact prim_runs (p := .string) (vmp_string _ _) (fun _ _ => rfl)
  | .fixed x, g, t, h, hh => by
    obtain ⟨rfl, q, d, size, rfl, hq, hk⟩ := h
    exact fixed_runs hq hk (hh _ (.self _))
  | .enum x, g, t, h, hh => by
    obtain ⟨rfl, q, d, ss, doc, dflt, rfl, hq, hk⟩ := h
    exact enum_runs hq hk (hh _ (.self _))
  | .array vs, g, t, h, hh => by
    obtain ⟨gs, item, d, rfl, rfl, hl, hs⟩ := h
    obtain ⟨e, hi⟩ := runsAll vs gs item hs (fun u hu => hh u (.item hu))
    exact array_runs e hl (hh _ (.self _)) hi
  | .map es, g, t, h, hh => by
    obtain ⟨gs, item, d, rfl, rfl, hl, hs⟩ := h
    obtain ⟨e, hi⟩ := runsEntries es gs item hs (fun u hu => hh u (.value hu))
    exact map_runs e hl (hh _ (.self _)) hi
  | .nil, g, t, h, hh => by
    obtain ⟨rfl, name, ts, d, rfl, hn⟩ := h
    exact nil_runs hn (hh _ (.self _))
  | .union tag none, g, t, h, _ => by cases h
  | .union tag (some v), g, t, h, hh => by
    obtain ⟨fs, name, ts, d, rfl, hl, rfl, htag, hm⟩ := h
    refine union_runs hl (hh _ (.self _)) htag fun u hu hn => ?_
    obtain ⟨m, hlm, hs⟩ := hm u hu hn
    exact ⟨m, hlm, runs v m u hs fun u' hu' => hh u' (.member (List.mem_of_getElem? hu) hu')⟩
  | .record vs, g, t, h, hh => by
    obtain ⟨fs, q, d, ps, doc, rfl, rfl, hq, hk, hs⟩ := h
    exact record_runs hq hk (hh _ (.self _)) (runsFields vs fs ps hs fun f hf u hu => hh u (.field hq hk hf hu))
theorem runsAll : ∀ (vs : List Val) (gs : List Value) (t : PTy), ShowAll nm n gs vs t → (∀ u, Within n t u → Has P nm n u) →
    gs.length = vs.length ∧ ∀ (i : Nat) g v, gs[i]? = some g → vs[i]? = some v → RunsAs M P nm n g v t
  | [], gs, t, h, _ => by
    have h : gs = [] := h
    subst h
    exact ⟨rfl, fun i g v hg => by cases hg⟩
  | v :: vs, gs, t, h, hh => by
    obtain ⟨g, gs, rfl, h1, h2⟩ := h
    obtain ⟨e, hi⟩ := runsAll vs gs t h2 hh
    refine ⟨by simp only [List.length_cons, e], fun i g' v' hg hv => ?_⟩
    cases i with
    | zero => cases hg; cases hv; exact runs v g t h1 hh
    | succ i => exact hi i g' v' (by simpa using hg) (by simpa using hv)
theorem runsEntries : ∀ (es : List (List Byte × Val)) (gs : List (List Byte × Value)) (t : PTy), ShowEntries nm n gs es t →
    (∀ u, Within n t u → Has P nm n u) →
    gs.length = es.length ∧ ∀ (i : Nat) g e, gs[i]? = some g → es[i]? = some e → g.1 = e.1 ∧ RunsAs M P nm n g.2 e.2 t
  | [], gs, t, h, _ => by
    have h : gs = [] := h
    subst h
    exact ⟨rfl, fun i g v hg => by cases hg⟩
  | (k, v) :: es, gs, t, h, hh => by
    obtain ⟨g, gs, rfl, h1, h2⟩ := h
    obtain ⟨e, hi⟩ := runsEntries es gs t h2 hh
    refine ⟨by simp only [List.length_cons, e], fun i g' v' hg hv => ?_⟩
    cases i with
    | zero => cases hg; cases hv; exact ⟨rfl, runs v g t h1 hh⟩
    | succ i => exact hi i g' v' (by simpa using hg) (by simpa using hv)
theorem runsFields : ∀ (vs : List Val) (fs : List (Str × Value)) (ps : List PField), ShowFields nm n fs vs ps →
    (∀ f ∈ ps, ∀ u, Within n f.ty u → Has P nm n u) → FieldsRun M P nm n (.struct fs) vs ps
  | [], fs, ps, h, _ => by
    have h : ps = [] := h
    subst h
    exact fields_nil _
  | v :: vs, fs, ps, h, hh => by
    obtain ⟨f, ps, m, rfl, hm, h1, h2⟩ := h
    exact fields_cons (m := m) hm (runs v m f.ty h1 (hh f (by simp))) (runsFields vs fs ps h2 fun f' hf => hh f' (by simp [hf]))
end
end
end Verif
