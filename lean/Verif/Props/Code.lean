import Verif.Gen.CodeClean
import Verif.Gen.CodeSer
import Verif.Props.Document
import Verif.Props.Writer
/-
C96: the generated serializers, as Go programs. `PTy.writerText` is the text that is generated for a type,
`PTy.writer` the program. `Returns M P f args st vs st'`: calling `f` with `args` returns `vs` (Spec/MiniGo); it
does not panic and does not run for ever. `Shows nm n g v t`: the Go value `g` is the Avro value `v` of the type
`t` (Spec/GoValues).
-/
namespace Verif.Props
open Verif Spec Spec.Go

/-- The fields of the record that a type names, if it names one, have names that Avro allows. -/
def FieldNames (n : NS) (t : PTy) : Prop := ∀ q d fs doc, t = .ref q → n.find q = some d → d.kind = .record fs doc →
  ∀ f ∈ fs, LegalName f.name ∧ LetterFirst f.name ∧ NamedTy n f.ty

theorem definition_text (nm : Namer) (n : NS) (d : PDef) (hd : Dotted d.name.str)
    (hf : ∀ fs doc, d.kind = .record fs doc → ∀ f ∈ fs, LegalName f.name ∧ LetterFirst f.name ∧ NamedTy n f.ty) :
    tokens (d.writerText nm n) = some (d.writer nm n).toks := by
  have hx : Exported (d.goName nm) := publicName_exported nm hd
  unfold PDef.writerText PDef.writer
  cases hk : d.kind with
  | record fs doc => exact tokens_of (clean_record nm n hx fs (hf fs doc hk)) (toks_recordCode nm n hx fs (hf fs doc hk))
  | enum ss doc dflt => exact tokens_of (clean_enumCode hx) (toks_enumCode hx)
  | fixed size => exact tokens_of (clean_fixedCode hx) (toks_fixedCode hx)

/-- C96: the text generated for a type is, token for token, the program. -/
theorem serializer_text (nm : Namer) (n : NS) (t : PTy) (ht : NamedTy n t) (hf : FieldNames n t) :
    (t.writerText nm n).map tokens = (t.writer nm n).map fun f => some f.toks := by
  cases t with
  | prim p d => rfl
  | array t d =>
    exact congrArg some (tokens_of (clean_array (goName_exported nm n _ ht) (clean_goType nm n _ ht) (clean_serializer nm n ht))
      (toks_array (goName_exported nm n _ ht) (types_of nm n ht) fun b r ts hr h => toks_serializer nm n (t := t) ht hr h))
  | map t d =>
    exact congrArg some (tokens_of (clean_map (goName_exported nm n _ ht) (clean_goType nm n _ ht) (clean_serializer nm n ht))
      (toks_map (goName_exported nm n _ ht) (types_of nm n ht) fun b r ts hr h => toks_serializer nm n (t := t) ht hr h))
  | union name ts d =>
    have hs : ∀ u ∈ ts, NamedTy n u := by
      have := ht
      simp only [NamedTy] at this
      exact namedTys_mem this.2
    exact congrArg some (tokens_of (clean_union nm n (goName_exported nm n _ ht) (clean_goType nm n _ ht) ts hs)
      (toks_unionCode nm n (goName_exported nm n _ ht) (types_of nm n ht) (plain_unionType nm n ht) ts hs))
  | ref q =>
    obtain ⟨d, h1, h2⟩ := ht
    have : tokens (d.writerText nm n) = some (d.writer nm n).toks :=
      definition_text nm n d h2 fun fs doc hk => hf q d fs doc rfl h1 hk
    simp only [PTy.writerText, PTy.writer, h1, Option.map_some, this]

/-- C96: so is the text of the method `Serialize` of a record or a union. -/
theorem serialize_text (nm : Namer) (n : NS) (t : PTy) (ht : NamedTy n t) :
    tokens (serializeText (t.goName nm n) (t.goType nm n)) = some (serializeMethod (t.goName nm n) (goTypeOf nm n t)).toks :=
  tokens_of (clean_serialize (goName_exported nm n _ ht) (clean_goType nm n _ ht)) (toks_serialize (goName_exported nm n _ ht) (types_of nm n ht))

section
variable {W : Type} (M : Machine W) (P : Package) (nm : Namer) (n : NS)

theorem writer_name {t : PTy} {f : Func} (h : t.writer nm n = some f) : t.serializer nm n = .own f.name ∧ f.name = writeName (t.goName nm n) := by
  cases t with
  | prim p d => cases h
  | array t d => cases h; exact ⟨rfl, rfl⟩
  | map t d => cases h; exact ⟨rfl, rfl⟩
  | union name ts d => cases h; exact ⟨rfl, rfl⟩
  | ref q =>
    simp only [PTy.writer, Option.map_eq_some_iff] at h
    obtain ⟨d, h1, rfl⟩ := h
    have e : (d.writer nm n).name = writeName (d.goName nm) := by
      unfold PDef.writer
      split <;> rfl
    rw [e]
    simp only [PTy.serializer, PTy.goName, h1, and_self]

/-- C96: a generated serializer, in a package that holds the serializers of the types its type is made of, called
with a value of the type and any writer, returns what `serialize` (C09, C11) says, and makes the calls of the
writer it says, where the maps are written in some order. In particular it does not panic and it ends. -/
theorem serializer_runs (t : PTy) (hP : ∀ u, Within n t u → Has P nm n u) (f : Func) (hf : t.writer nm n = some f)
    (g : Value) (v : Val) (hv : Shows nm n g v t) (st : World W) : ∃ mo st',
    Returns M P f [g, .writer] st [.error (runSer M.o st.w (serialize n.env M.byteWriter mo v t.erase)).2] st' ∧
      st'.w = (runSer M.o st.w (serialize n.env M.byteWriter mo v t.erase)).1 := by
  obtain ⟨mo, st', h1, h2⟩ := Verif.runs v g t hv hP (M := M) st []
  obtain ⟨h3, -⟩ := writer_name nm n hf
  rw [h3] at h2
  obtain ⟨fn, h4, h5⟩ := h2
  rw [(hP t (.self t)).func f hf] at h4
  cases h4
  exact ⟨mo, st', h5, h1⟩

/-- C96: so does the method `Serialize`. -/
theorem serialize_runs (t : PTy) (hP : ∀ u, Within n t u → Has P nm n u) (f : Func) (hf : t.writer nm n = some f)
    (g : Value) (v : Val) (hv : Shows nm n g v t) (st : World W) : ∃ mo st',
    Returns M P (serializeMethod (t.goName nm n) (goTypeOf nm n t)) [g, .writer] st
      [.error (runSer M.o st.w (serialize n.env M.byteWriter mo v t.erase)).2] st' ∧
      st'.w = (runSer M.o st.w (serialize n.env M.byteWriter mo v t.erase)).1 := by
  obtain ⟨mo, st', h1, h2⟩ := serializer_runs M P nm n t hP f hf g v hv st
  obtain ⟨-, h3⟩ := writer_name nm n hf
  have h4 : P.funcs (writeName (t.goName nm n)) = some f := by rw [← h3]; exact (hP t (.self t)).func f hf
  refine ⟨mo, st', returns_of (vars := start g) (bind_start g) (bl_ret (ex_ret (ev_call (us := [g, .writer]) (st1 := st)
    (evs_cons (ev_var (start_r g)) (evs_cons (ev_var (start_w g)) evs_nil)) (fun x y h => by cases h) ⟨f, h4, h1⟩))), h2⟩

/-- C96, with C09 and C11: `Serialize` on a value of its type, on a writer that keeps the contract of `io.Writer`.
Without an error the writer has taken an encoding of the value as the Avro specification defines it; with an error,
which is the writer's, it has taken a beginning of one. -/
theorem serialize_writes_encoding {view : W → List Byte} (ho : M.o.Takes view) {lim : Nat} (hl : lim < 2 ^ 63)
    (t : PTy) (hP : ∀ u, Within n t u → Has P nm n u) (f : Func) (hf : t.writer nm n = some f)
    (g : Value) (v : Val) (hv : Shows nm n g v t) (ht : HasTy n.env lim v t.erase) (st : World W) : ∃ d e err st',
    Repr n.env v t.erase d ∧ Enc n.env d t.erase e ∧
    Returns M P (serializeMethod (t.goName nm n) (goTypeOf nm n t)) [g, .writer] st [.error err] st' ∧
    match err with
    | none => view st'.w = view st.w ++ e
    | some err => err ≠ .invalid ∧ ∃ q, q <+: e ∧ view st'.w = view st.w ++ q := by
  obtain ⟨mo, st', h1, h2⟩ := serialize_runs M P nm n t hP f hf g v hv st
  obtain ⟨d, e, a1, a2, -, a4, a5⟩ := ser_enc n.env M.byteWriter mo hl v t.erase [] ht
  have hw := failing_writer ho ⟨n.env, t.erase⟩ M.byteWriter mo v st.w
  have hi := only_writer_fails (o := M.o) (s := ⟨n.env, t.erase⟩) hl ht M.byteWriter mo st.w
  refine ⟨d, e, _, st', a1, a2, h1, ?_⟩
  have ewire : wire ⟨n.env, t.erase⟩ M.byteWriter mo v = e := a5
  rw [ewire] at hw
  simp only at hw hi
  rw [h2]
  rcases hr : runSer M.o st.w (serialize n.env M.byteWriter mo v t.erase) with ⟨w', _ | er⟩
  · rw [hr] at hw; exact hw.1
  · rw [hr] at hw hi; exact ⟨fun h => hi (by rw [h]), hw⟩
end

/-! ### Packages -/

/-- The constants that are generated for a type, templates/union.go:16-22. -/
def constsOf (nm : Namer) (n : NS) : PTy → List (Str × Value)
  | .union name ts d => ((ts.map fun u => unionEnumType ((PTy.union name ts d).goName nm n) ++ u.goName nm n).zipIdx.filter
      fun c => decide (some c.2 ≠ ts.findIdx? nullTy)).map fun c => (c.1, .int (BitVec.ofNat 64 c.2))
  | _ => []

/-- The package with the serializers and constants of these types. -/
def packageOf (nm : Namer) (n : NS) (ts : List PTy) : Package where
  funcs name := (ts.filterMap (PTy.writer nm n)).find? fun f => decide (f.name = name)
  consts name := (ts.flatMap (constsOf nm n)).lookup name

/-- No name is declared twice with different meanings, as in every package that the Go compiler accepts. -/
structure Declared (nm : Namer) (n : NS) (ts : List PTy) : Prop where
  funcs : ∀ t ∈ ts, ∀ u ∈ ts, ∀ f g, t.writer nm n = some f → u.writer nm n = some g → f.name = g.name → f = g
  consts : ∀ c ∈ ts.flatMap (constsOf nm n), ∀ c' ∈ ts.flatMap (constsOf nm n), c.1 = c'.1 → c = c'

theorem lookup_of_mem {α : Type} {k : Str} {v : α} : ∀ {l : List (Str × α)}, (k, v) ∈ l → (∀ c ∈ l, c.1 = k → c = (k, v)) → l.lookup k = some v
  | [], h, _ => by cases h
  | (k', v') :: l, h, hu => by
    rw [List.lookup_cons]
    by_cases e : k = k'
    · subst e
      cases hu (k, v') (by simp) rfl
      simp
    · rw [show (k == k') = false by simpa using e]
      refine lookup_of_mem (l := l) ?_ fun c hc he => hu c (by simp [hc]) he
      rcases List.mem_cons.1 h with h | h
      · cases h; exact absurd rfl e
      · exact h

/-- C96: the package made of the code of some types holds what is generated for each of them. -/
theorem package_has (nm : Namer) (n : NS) (ts : List PTy) (hd : Declared nm n ts) (t : PTy) (ht : t ∈ ts) : Has (packageOf nm n ts) nm n t where
  func f hf := by
    have hm : f ∈ ts.filterMap (PTy.writer nm n) := List.mem_filterMap.2 ⟨t, ht, hf⟩
    have hs : ((ts.filterMap (PTy.writer nm n)).find? fun g => decide (g.name = f.name)).isSome := by
      rw [List.find?_isSome]; exact ⟨f, hm, by simp⟩
    obtain ⟨g, hg⟩ := Option.isSome_iff_exists.1 hs
    have h1 := List.mem_of_find?_eq_some hg
    have h2 := List.find?_some hg
    obtain ⟨u, h3, h4⟩ := List.mem_filterMap.1 h1
    rw [show (packageOf nm n ts).funcs f.name = _ from hg, hd.funcs u h3 t ht g f h4 hf (by simpa using h2)]
  consts name us d e i u hi hn := by
    subst e
    have hm : (unionEnumType ((PTy.union name us d).goName nm n) ++ u.goName nm n, Value.int (BitVec.ofNat 64 i)) ∈ ts.flatMap (constsOf nm n) := by
      refine List.mem_flatMap.2 ⟨_, ht, List.mem_map.2 ⟨(unionEnumType ((PTy.union name us d).goName nm n) ++ u.goName nm n, i), ?_, rfl⟩⟩
      refine List.mem_filter.2 ⟨?_, by simpa using fun h => hn h.symm⟩
      rw [List.mem_zipIdx_iff_getElem?]
      simp [hi]
    exact lookup_of_mem hm fun c hc e => hd.consts c hc _ hm e

/-- The types a type names directly. -/
def partsOf (n : NS) : PTy → List PTy
  | .prim _ _ => []
  | .array t _ => [t]
  | .map t _ => [t]
  | .union _ ts _ => ts
  | .ref q => match n.find q with
    | some d => match d.kind with
      | .record fs _ => fs.map (·.ty)
      | _ => []
    | none => []

/-- The types of a package are closed: what a type names is there too. -/
theorem within_closed (n : NS) {ts : List PTy} (hc : ∀ t ∈ ts, ∀ u ∈ partsOf n t, u ∈ ts) {t u : PTy} (h : Within n t u) (ht : t ∈ ts) : u ∈ ts := by
  induction h with
  | self t => exact ht
  | item _ ih => exact ih (hc _ ht _ (by simp [partsOf]))
  | value _ ih => exact ih (hc _ ht _ (by simp [partsOf]))
  | member hm _ ih => exact ih (hc _ ht _ (by simpa [partsOf] using hm))
  | field h1 h2 h3 _ ih => exact ih (hc _ ht _ (by simp only [partsOf, h1, h2]; exact List.mem_map.2 ⟨_, h3, rfl⟩))

/-- C96, with C77: a program is generated from documents; its method `Serialize` writes a value, and `Deserialize`
with the schema the type carries reads the value back. -/
theorem code_roundtrip_partial {short : Bool} {js : List Json} {n : NS} (h : parseCommand short js = .ok n) (hr : Regular n.env)
    {q : QName} {d : PDef} (hq : n.find q = some d) (hown : d.name = q) {fs doc} (hk : d.kind = .record fs doc)
    (hm : ∀ e, Leads n.find d e → FieldsMovable n.find e)
    {R : Type} {σ : Setting R} {view : R → List Byte} (hd : σ.ro.Delivers view) (hl : σ.lim < 2 ^ 63)
    {W : Type} (M : Machine W) {taken : W → List Byte} (ho : M.o.Takes taken)
    (nm : Namer) (ts : List PTy) (hts : Declared nm n ts) (hc : ∀ t ∈ ts, ∀ u ∈ partsOf n t, u ∈ ts) (hin : .ref q ∈ ts)
    (g : Value) (v : Val) (hs : Shows nm n g v (.ref q)) (hv : HasTy n.env σ.lim v (.ref q)) (st : World W) :
    ∃ err st', Returns M (packageOf nm n ts) (serializeMethod (d.goName nm) (.named (d.goName nm))) [g, .writer] st [.error err] st' ∧
      (err = none → ∃ e j s, taken st'.w = taken st.w ++ e ∧ recordSchema n d = some j ∧ parseSchema j = .ok s ∧
        ∀ (rd : R) (rest : List Byte), view rd = e ++ rest → ∃ rd', Deserializes σ s s rd (.value v rd') ∧ view rd' = rest) := by
  have hP : ∀ u, Within n (.ref q) u → Has (packageOf nm n ts) nm n u := fun u hu => package_has nm n ts hts u (within_closed n hc hu hin)
  obtain ⟨mo, st', h1, h2⟩ := serialize_runs M (packageOf nm n ts) nm n (.ref q) hP (d.writer nm n) (by simp only [PTy.writer, hq, Option.map_some])
    g v hs st
  have e1 : (PTy.ref q).goName nm n = d.goName nm := by simp only [PTy.goName, hq]
  have e2 : goTypeOf nm n (.ref q) = .named (d.goName nm) := by simp only [goTypeOf, e1]
  rw [e1, e2] at h1
  refine ⟨_, st', h1, fun he => ?_⟩
  obtain ⟨j, s, h3, h4, -, h5⟩ := document_roundtrip_partial (σ := σ) (view := view) h hr hq hk hm hd hl M.byteWriter mo (v := v) (by rw [hown]; exact hv)
  have hw := failing_writer ho ⟨n.env, .ref q⟩ M.byteWriter mo v st.w
  rcases hx : runSer M.o st.w (serialize n.env M.byteWriter mo v (PTy.ref q).erase) with ⟨w', _ | er⟩
  · rw [show runSer M.o st.w (serialize (Schema.mk n.env (.ref q)).env M.byteWriter mo v (Schema.mk n.env (.ref q)).root) = _ from hx] at hw
    refine ⟨_, j, s, ?_, h3, h4, h5⟩
    rw [h2, hx, hown]
    exact hw.1
  · rw [hx] at he; cases he

end Verif.Props
