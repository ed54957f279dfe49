import Verif.Props.Run
/-
Properties C23-C28 and C34: `compiler.Compile` and the programs it makes.

* `compile ord lax w r`: `Compile` for the parsed schemas `w` (writer) and `r` (reader), with
  `lax` for the option `AllowLaxNames`; `ord` is the order in which Go iterates over maps.
* `compileFuel n`: the same with at most `n` nested calls of `compileType`.
* Specifications: `Spec/Refused`, `Spec/CanRead`.
-/
namespace Verif.Props
open Verif
set_option linter.unusedVariables false
set_option linter.unusedSimpArgs false

section
variable {R : Type} {σ : Setting R} {view : R → List Byte} {w r : Schema}

/-! ### C34 -/

/-- C34: `Compile` returns an error exactly if, while the writer's type is matched with the
reader's, a place is met where they do not fit (see `Refused` for the list). -/
theorem refused_iff (hs : Suited w r) (ord : Orders) :
    (∃ e, compile ord false w r = .error e) ↔ Refused false w.env r.env w.root (some r.root) :=
  compile_error_iff hs.toSound hs.fields

/-- The reader has a field that the writer lacks, without default. -/
example : ∃ e, compile Orders.id false (one qP [fld "a" .int]) (one qP [fld "a" .int, fld "b" .int]) = .error e :=
  (refused_iff (suited_of (by decide +kernel)) _).2
    (.noDefault (q := qP) (q' := qP) (j := 1) (rf := fld "b" .int)
      ⟨⟨_, rfl, rfl⟩, ⟨_, rfl, rfl⟩⟩ rfl (by
        intro wf hwf ha
        simp at hwf; subst hwf
        have := ha.answers
        simp [Field.answers, fld] at this) rfl)

/-- C34 for a writer whose root is a record, enum or fixed: if the reader's type cannot read
it, `Compile` returns an error. What is missing are other roots: see `root_not_checked`. -/
theorem incompatible_refused_partial (hs : Suited w r) (ord : Orders) {q : QName} (hw : w.root = .ref q)
    (hn : ¬ CanRead w.env r.env w.root r.root) : ∃ e, compile ord false w r = .error e := by
  refine (refused_iff hs ord).2 ?_
  rw [hw] at hn ⊢
  cases hr : r.root with
  | union rs =>
    exact .noMember (by simp) fun t ht hc => hn (hr ▸ .intoUnion ht hc)
  | ref q' =>
    cases h1 : w.env.find q with
    | none => exact .unknown h1 (by simp)
    | some wd =>
      cases h2 : r.env.find q' with
      | none => exact .unknownReader h2
      | some rd =>
        refine .names rfl h1 h2 fun h => hn ?_
        rw [hr]
        exact .ref h1 h2 h.1 h.2
  | _ => exact .ref (by simp) (by simp)

/-- A record of another name. -/
example : ∃ e, compile Orders.id false (one qP [fld "a" .int]) (one qR [fld "a" .int]) = .error e :=
  incompatible_refused_partial (suited_of (by decide +kernel)) _ (q := qP) rfl (by rw [← readable_iff]; decide +kernel)

/-- C34 inside a record at the root: if the type of a field cannot be read as the type of the
reader's field of that name, or the reader has a field without default that the writer lacks,
`Compile` returns an error. -/
theorem fields_refused (hs : Suited w r) (ord : Orders) {q q' wd rd wfs rfs} (hw : w.root = .ref q) (hr : r.root = .ref q')
    (h1 : w.env.find q = some wd) (h2 : r.env.find q' = some rd) (hk1 : wd.kind = .record wfs) (hk2 : rd.kind = .record rfs)
    (h : (∃ i j wf rf, Matched wfs rfs i j wf rf ∧ ¬ CanRead w.env r.env wf.ty rf.ty) ∨
      (∃ rf ∈ rfs, rf.dflt = none ∧ ∀ wf ∈ wfs, ¬ rf.answers wf.name)) :
    ∃ e, compile ord false w r = .error e := by
  refine (refused_iff hs ord).2 ?_
  rw [hw, hr]
  rcases h with ⟨i, j, wf, rf, hm, hn⟩ | ⟨rf, hrf, hd, hn⟩
  · refine .fieldType ⟨⟨_, h1, hk1⟩, ⟨_, h2, hk2⟩⟩ (List.mem_of_getElem? hm.writer) (j := j) (rf := rf) ⟨hm.reader, hm.answers, ?_⟩ hn
    intro i' g hi hg ha
    have := hm.onlyR i' g hg ha
    omega
  · obtain ⟨j, hj⟩ := List.getElem?_of_mem hrf
    exact .noDefault ⟨⟨_, h1, hk1⟩, ⟨_, h2, hk2⟩⟩ hj (fun wf hwf ha => hn wf hwf ha.answers) hd

/-- A string as an int. -/
example : ∃ e, compile Orders.id false (one qP [fld "a" .string]) (one qP [fld "a" .int]) = .error e :=
  fields_refused (suited_of (by decide +kernel)) _ (q := qP) (q' := qP) rfl rfl rfl rfl rfl rfl
    (.inl ⟨0, 0, _, _, matched_of rfl rfl (by decide +kernel), by rw [← readable_iff]; decide +kernel⟩)

/-- C34 does not hold for other roots: `Compile` compares the types of fields, not those at
the root. A long read as a record is accepted. -/
theorem root_not_checked : ∃ w r : Schema, Suited w r ∧ ¬ CanRead w.env r.env w.root r.root ∧
    ∃ prog, compile Orders.id false w r = .ok prog := by
  let w : Schema := { env := [], root := .long }
  let r : Schema := one qP [fld "a" .int]
  exact ⟨w, r, suited_of (by decide +kernel), by rw [← readable_iff]; decide +kernel, compiles_of (n := 9) (by decide +kernel)⟩

/-- Nor for unions at the root, where the error comes when the data is read. -/
theorem union_root_not_checked : ∃ w r : Schema, Suited w r ∧ ¬ CanRead w.env r.env w.root r.root ∧
    ∃ prog, compile Orders.id false w r = .ok prog := by
  let w : Schema := { env := [], root := .union [.int] }
  let r : Schema := { env := [], root := .union [.string] }
  exact ⟨w, r, suited_of (by decide +kernel), by rw [← readable_iff]; decide +kernel, compiles_of (n := 9) (by decide +kernel)⟩

/-! ### C23 -/

/-- C23: a call of `DeserializeXFromSchema` ends in the same way whatever the order in which Go
iterates over the compiler's maps: with an error of the compiler, an error of `vm.Eval`, or
the same value and the reader in the same state. -/
theorem any_map_order (hs : Suited w r) (hg : Grounded w.env) (hd : σ.ro.Delivers view) (ord' : Orders) (rd : R) (res : Res R) :
    Deserializes { σ with ord := ord' } w r rd res ↔ Deserializes σ w r rd res := by
  suffices ∀ (σ : Setting R), σ.ro.Delivers view → ∀ (ord' : Orders) (res : Res R),
      Deserializes σ w r rd res → Deserializes { σ with ord := ord' } w r rd res from
    ⟨fun h => this { σ with ord := ord' } hd σ.ord res h, fun h => this σ hd ord' res h⟩
  intro σ hd ord' res h
  rcases outcome_of hs hg hd h with ⟨rfl, e, he⟩ | ⟨prog, d, v, rd', hc, hr, hv, rfl⟩ | ⟨prog, d, z, hc, hr, hv, rfl⟩ | ⟨prog, hc, hr, rfl⟩
  · obtain ⟨e', he'⟩ := compile_any_order_error ord' hs.toSound hs.fields he
    exact .refused he'
  · obtain ⟨prog', hc'⟩ := compile_any_order ord' hs.toSound hs.fields hc
    obtain ⟨n, hn⟩ := hr
    obtain ⟨rd1, h1, h2⟩ := parse_view hd hn
    have key : ∀ (ord : Orders) (prog : Program), compile ord false w r = .ok prog →
        Deserializes { σ with ord := ord } w r rd (.value (rootVal v) rd1) := by
      intro ord prog hc
      by_cases hnil : v = .nil
      · subst hnil; exact deserialize_null (σ := { σ with ord := ord }) hs hd.full hc h1 hv
      · rw [rootVal_ne hnil]; exact deserialize_value (σ := { σ with ord := ord }) hs hd.full hc h1 hv hnil
    have := h.det (key σ.ord prog hc)
    cases this
    exact key ord' prog' hc'
  · obtain ⟨prog', hc'⟩ := compile_any_order ord' hs.toSound hs.fields hc
    exact outcome_unresolved (σ := { σ with ord := ord' }) hs hd hc' hr hv
  · obtain ⟨prog', hc'⟩ := compile_any_order ord' hs.toSound hs.fields hc
    exact outcome_unreadable (σ := { σ with ord := ord' }) hs hd hc' hr

/-- Reversed orders. -/
def Orders.rev : Orders where
  defaults _ l := l.reverse
  defaults_perm _ l := l.reverse_perm
  cases _ l := l.reverse
  cases_perm _ l := l.reverse_perm
  methods l := l.reverse
  methods_perm l := l.reverse_perm

/-- The programs are different, what they do is the same. -/
example : (∀ rd res, Deserializes { demo true with ord := Orders.rev } wide wideR rd res ↔ Deserializes (demo true) wide wideR rd res) ∧
    (compileFuel 12 Orders.id false wide wideR).toOption.map (·.instrs) ≠
      (compileFuel 12 Orders.rev false wide wideR).toOption.map (·.instrs) :=
  ⟨fun rd res => any_map_order wide_reading.suited (grounded_of (fun q => if q = qP then 1 else 0) (by decide +kernel))
    (demo_delivers true) _ rd res, by decide +kernel⟩

/-! ### C24 -/

/-- C24: `Compile` returns: the nesting of calls is bounded and a result, a program or an
error, is reached. For all schemas, also recursive ones and ones with unresolved names. -/
theorem compile_terminates (ord : Orders) (lax : Bool) (w r : Schema) :
    ∃ n res, (∀ m, n ≤ m → compileFuel m ord lax w r = res) ∧ res ≠ .error .fuel := by
  refine ⟨compileBound w r, compile ord lax w r, fun m hm => ?_, compile_ends ord lax w r⟩
  rw [compile_eq (n := m)]
  exact compileFuel_ends ord lax w r m hm

/-- Two records that refer to each other. -/
def pingPong : Schema :=
  { env := [(qP, { name := qP, kind := .record [fld "r" (.union [.null, .ref qR])] }),
            (qR, { name := qR, kind := .record [fld "p" (.array (.ref qP))] })],
    root := .ref qP }
example : ∃ n res, (∀ m, n ≤ m → compileFuel m Orders.id false pingPong pingPong = res) ∧ res ≠ .error .fuel :=
  compile_terminates _ _ _ _
example : (compileFuel 12 Orders.id false pingPong pingPong).isOk = true := by decide +kernel

/-! ### C25 -/

/-- C25: in a compiled program all targets of jumps and calls are instructions, and every
`Halt` has an error. What is missing: unions read as null, see `jump_out_of_range`. -/
theorem in_range_partial (hs : Suited w r) {ord : Orders} {prog} (h : compile ord false w r = .ok prog) :
    (∀ i ∈ prog.instrs, i.op = .jump ∨ i.op = .condJump ∨ i.op = .call → 0 ≤ i.arg ∧ i.arg < prog.instrs.length) ∧
    (∀ i ∈ prog.instrs, i.op = .halt → 0 ≤ i.arg ∧ i.arg ≤ prog.errors.length) := by
  obtain ⟨main, st, h1, h2⟩ := compile_ok h
  have := link_inRange ord (emits_type ord false w.env r.env _ _ _ _ _ _ h1) (hs.toSound.clean h1).2 h2
  exact ⟨this.jump, this.halt⟩

example : ∃ prog, compile Orders.id false wide wideR = .ok prog ∧ 20 < prog.instrs.length ∧
    (∀ i ∈ prog.instrs, i.op = .jump ∨ i.op = .condJump ∨ i.op = .call → 0 ≤ i.arg ∧ i.arg < prog.instrs.length) := by
  obtain ⟨prog, hp⟩ := compiles_of wide_compiles
  refine ⟨prog, hp, ?_, (in_range_partial wide_reading.suited hp).1⟩
  have : ∀ p, compileFuel 12 Orders.id false wide wideR = .ok p → 20 < p.instrs.length := by
    have : ((compileFuel 12 Orders.id false wide wideR).toOption.map fun p => decide (20 < p.instrs.length)) = some true := by
      decide +kernel
    intro p hp
    rw [hp] at this
    simpa [Except.toOption] using this
  exact this prog (by rw [← compile_eq (by intro h; have := wide_compiles; rw [h] at this; cases this)]; exact hp)

/-- A record with a field `["null", "int"]`, read as a record with a field `null`. -/
def optW (ts : List Ty) : Schema := one qP [fld "u" (.union ts)]
def nullR : Schema := one qP [fld "u" .null]

/-- C25 does not hold for a union that is read as null: method.go:392-393 leaves out the case,
for which instruction.go:96 has counted two instructions. -/
theorem jump_out_of_range : ∃ prog, compile Orders.id false (optW [.null, .int]) nullR = .ok prog ∧
    ∃ i ∈ prog.instrs, i.op = .jump ∧ (prog.instrs.length : Int) ≤ i.arg := by
  have h : (compileFuel 9 Orders.id false (optW [.null, .int]) nullR).toOption.map (fun p =>
      p.instrs.any fun i => i.op == .jump && decide ((p.instrs.length : Int) ≤ i.arg)) = some true := by decide +kernel
  cases hc : compileFuel 9 Orders.id false (optW [.null, .int]) nullR with
  | error e => rw [hc] at h; cases h
  | ok prog =>
    refine ⟨prog, by rw [compile_eq (n := 9) (by rw [hc]; simp), hc], ?_⟩
    rw [hc] at h
    simpa [Except.toOption, List.any_eq_true] using h

/-! ### C26, C27, C28

What holds is in Props/Resolution: `fields_by_name` says, for each place where a record is
read as a record, that the fields follow the layouts of these two, for schemas in which
different records have different Go names and no record can be read as two (`Suited`). -/

/-- Two records called X in different namespaces, with the same fields in different order. -/
def qX1 : QName := ⟨"m".toList, "X".toList⟩
def qX2 : QName := ⟨"n".toList, "X".toList⟩
def qY : QName := ⟨[], "Y".toList⟩
def twoX : Schema :=
  { env := [(qX1, { name := qX1, kind := .record [fld "p" .int, fld "q" .int] }),
            (qX2, { name := qX2, kind := .record [fld "q" .int, fld "p" .int] }),
            (qR, { name := qR, kind := .record [fld "a" (.ref qX1), fld "b" (.ref qX2)] })],
    root := .ref qR }
/-- The reader has renamed the second. -/
def twoXR : Schema :=
  { env := [(qX1, { name := qX1, kind := .record [fld "p" .int, fld "q" .int] }),
            (qY, { name := qY, aliases := [qX2], kind := .record [fld "p" .int, fld "q" .int] }),
            (qR, { name := qR, kind := .record [fld "a" (.ref qX1), fld "b" (.ref qY)] })],
    root := .ref qR }

/-- C26 does not hold: the second X is decoded with the layout of the first. The data is
`{a: {p: 1, q: 2}, b: {q: 3, p: 4}}`, the result has `b.p = 3` and `b.q = 4`. (Methods are
kept by the writer's Go name, method.go:178-187.) -/
theorem same_short_name_confused :
    Enc twoX.env (.record [.record [.int 1, .int 2], .record [.int 3, .int 4]]) twoX.root [2, 4, 6, 8] ∧
    resolve (fun _ => true) (demo true).dv twoX.env twoXR.env (.record [.record [.int 1, .int 2], .record [.int 3, .int 4]])
      twoX.root twoXR.root = some (.record [.record [.int 1, .int 2], .record [.int 4, .int 3]]) ∧
    Deserializes (demo true) twoX twoXR [[2, 4, 6, 8]]
      (.value (.record [.record [.int 1, .int 2], .record [.int 3, .int 4]]) [[]]) :=
  ⟨encode_enc (by decide +kernel), by with_unfolding_all rfl, runs true 12 200 (by decide +kernel)⟩

/-- C26: the generated type of the same schema (with distinct Go types, as generated with
`-namespaced-names`) does not even restore what it wrote: here the first X has an int, the
second a string. -/
def twoX' : Schema :=
  { env := [(qX1, { name := qX1, kind := .record [fld "p" .int] }),
            (qX2, { name := qX2, kind := .record [fld "s" .string] }),
            (qR, { name := qR, kind := .record [fld "a" (.ref qX1), fld "b" (.ref qX2)] })],
    root := .ref qR }
theorem same_short_name_not_restored :
    Enc twoX'.env (.record [.record [.int 1], .record [.string (txt "A")]]) twoX'.root [2, 2, 0x41] ∧
    Deserializes (demo true) twoX' twoX' [[2, 2, 0x41]] .failed :=
  ⟨encode_enc (by decide +kernel), runs true 12 200 (by decide +kernel)⟩

/-- One X in the writer, -/
def oneX : Schema :=
  { env := [(qX1, { name := qX1, kind := .record [fld "p" .int, fld "q" .int] }),
            (qR, { name := qR, kind := .record [fld "a" (.ref qX1), fld "b" (.ref qX1)] })],
    root := .ref qR }
/-- read as X and as Y, which has the alias X and the fields in the other order. -/
def oneXR : Schema :=
  { env := [(qX1, { name := qX1, kind := .record [fld "p" .int, fld "q" .int] }),
            (qY, { name := qY, aliases := [qX1], kind := .record [fld "q" .int, fld "p" .int] }),
            (qR, { name := qR, kind := .record [fld "a" (.ref qX1), fld "b" (.ref qY)] })],
    root := .ref qR }

/-- C27 does not hold: Y is filled as if it were X: with `b: {p: 3, q: 4}` the fields of the
result are `b.q = 3` and `b.p = 4`. -/
theorem two_readers_confused :
    Enc oneX.env (.record [.record [.int 1, .int 2], .record [.int 3, .int 4]]) oneX.root [2, 4, 6, 8] ∧
    resolve (fun _ => true) (demo true).dv oneX.env oneXR.env (.record [.record [.int 1, .int 2], .record [.int 3, .int 4]])
      oneX.root oneXR.root = some (.record [.record [.int 1, .int 2], .record [.int 4, .int 3]]) ∧
    Deserializes (demo true) oneX oneXR [[2, 4, 6, 8]]
      (.value (.record [.record [.int 1, .int 2], .record [.int 3, .int 4]]) [[]]) :=
  ⟨encode_enc (by decide +kernel), by with_unfolding_all rfl, runs true 12 200 (by decide +kernel)⟩

/-- C28 does not hold: null written under `["null", "int"]` cannot be read as `null`. -/
theorem nullable_as_null_fails :
    Enc (optW [.null, .int]).env (.record [.union 0 .null]) (optW [.null, .int]).root [0] ∧
    CanRead (optW [.null, .int]).env nullR.env (.union [.null, .int]) .null ∧
    Deserializes (demo true) (optW [.null, .int]) nullR [[0]] .failed :=
  ⟨encode_enc (by decide +kernel), .ofUnion (by simp) .null, runs true 12 200 (by decide +kernel)⟩

/-- C28: with null as the last member, the int 5 is read as null, and is still there to be read
as whatever comes next. -/
theorem int_read_as_null :
    Enc (optW [.int, .null]).env (.record [.union 0 (.int 5)]) (optW [.int, .null]).root [0, 10] ∧
    Deserializes (demo true) (optW [.int, .null]) nullR [[0, 10]] (.value (.record [.null]) [[10]]) :=
  ⟨encode_enc (by decide +kernel), runs true 12 200 (by decide +kernel)⟩

/-- C28 for a reader with a union that has a null member, at any place in it and in the
writer's: null is read as null, in every position but the root (`root_null_not_restored`). -/
theorem nullable_as_nullable_partial {d : Datum} {rd rd' : R} {rest : List Byte}
    (h : Reading σ view w r d rd rest) {v : Val} (hv : Deserializes σ w r rd (.value v rd'))
    {s : Step} {p : List Step} {i : Nat} {ts rs : List Ty}
    (hp : Sees w.env r.env d w.root r.root (s :: p) (.union i .null) (.union ts) (.union rs))
    (ht : ts[i]? = some .null) (hr : Ty.null ∈ rs) : v.at (s :: p) = some .nil := by
  obtain ⟨u, h1, h2⟩ := part h hv hp
  have hnull : (Ty.union rs).nullable = true := by
    simp only [Ty.nullable, List.any_eq_true]
    exact ⟨_, hr, rfl⟩
  simp only [resolve, ht, readNull, hnull, Ty.isNull, if_true, Option.some.injEq] at h1
  subst h1
  rcases h2 with h2 | ⟨h2, -⟩
  · exact h2
  · cases h2

example : ∃ rd', Deserializes (demo true) (optW [.int, .null]) (optW [.string, .null, .long]) [[2], []] (.value (.record [.nil]) rd') := by
  have hr : Reading (demo true) List.flatten (optW [.int, .null]) (optW [.string, .null, .long]) (.record [.union 1 .null]) [[2], []] [] :=
    reading_of true (by decide +kernel) (by decide +kernel) (by decide +kernel) _
  obtain ⟨rd', h⟩ := value_exists (n := 12) (v := .record [.nil]) hr (by decide +kernel) (by with_unfolding_all rfl)
  have := nullable_as_nullable_partial hr h (s := .field 0) (p := []) (i := 1)
    (.field (q := qP) (q' := qP) (i := 0) rfl rfl rfl rfl (matched_of rfl rfl (by decide +kernel)) rfl .here) rfl (by simp)
  exact ⟨rd', h⟩

end
end Verif.Props
