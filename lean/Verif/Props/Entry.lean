import Verif.Gen.EntryText
import Verif.Gen.EntryProof
import Verif.Props.Exchange
import Verif.Props.Code
/-
C103: the functions with which a user's program decodes and with which it opens container files: `DeserializeX`, `DeserializeXFromSchema`, `NewXWriter`,
`NewXReader` and `Read`. Their texts are programs, and the programs do what the other properties say of decoding. `Calls Y f args o`: a call of the function
`f` can end as `o`; `Y = entryLib …` has what the functions call.
-/
namespace Verif.Props
open Verif Spec Spec.Go Spec.GoE
set_option autoImplicit false

section
variable (nm : Namer) (n : NS)

/-- C103: the text of `DeserializeX` and of `DeserializeXFromSchema` of a record. -/
theorem record_decode_text {q : QName} (h : NamedTy n (.ref q)) :
    tokens (recordDecodeText ((PTy.ref q).goName nm n)) = some (recordDecode false ((PTy.ref q).goName nm n)).toks ∧
    tokens (recordDecodeFromText ((PTy.ref q).goName nm n)) = some (recordDecode true ((PTy.ref q).goName nm n)).toks :=
  ⟨writes_tokens (writes_recordDecode (goName_exported nm n _ h)), writes_tokens (writes_recordDecodeFrom (goName_exported nm n _ h))⟩

/-- C103: the text of the same of a union. -/
theorem union_decode_text {s : Str} {ts : List PTy} {d : List Json} (h : NamedTy n (.union s ts d)) :
    tokens (unionDecodeText ((PTy.union s ts d).goName nm n) ((PTy.union s ts d).goType nm n) ts) =
      some (unionDecode false ((PTy.union s ts d).goName nm n) (goTypeOf nm n (.union s ts d)).toks (nullAt 0 ts).isSome).toks ∧
    tokens (unionDecodeFromText ((PTy.union s ts d).goName nm n) ((PTy.union s ts d).goType nm n) ts) =
      some (unionDecode true ((PTy.union s ts d).goName nm n) (goTypeOf nm n (.union s ts d)).toks (nullAt 0 ts).isSome).toks :=
  ⟨writes_tokens (writes_unionDecode (goName_exported nm n _ h) (phrase_type nm n h) ts),
    writes_tokens (writes_unionDecodeFrom (goName_exported nm n _ h) (phrase_type nm n h) ts)⟩

/-- C103: the text of `NewXWriter`, `NewXReader` and `Read`. -/
theorem container_text {q : QName} (h : NamedTy n (.ref q)) :
    tokens (newWriterText ((PTy.ref q).goName nm n)) = some (newWriterFn ((PTy.ref q).goName nm n)).toks ∧
    tokens (newReaderText ((PTy.ref q).goName nm n)) = some (newReaderFn ((PTy.ref q).goName nm n)).toks ∧
    tokens (readText ((PTy.ref q).goName nm n)) = some (readFn ((PTy.ref q).goName nm n)).toks :=
  ⟨writes_tokens (writes_newWriter (goName_exported nm n _ h)), writes_tokens (writes_newReader (goName_exported nm n _ h)),
    writes_tokens (writes_readRecord (goName_exported nm n _ h))⟩
end

section
variable {R W : Type} {σ : Setting R} {L : Ocf.Libs} {read : List Byte → Option Json} {E : Ocf.WEnv W} {name : Str} {schema : List Byte} {s : Schema} {null : Bool}

local notation "Y" => entryLib σ L read E name schema s null

/-- What a caller sees of a call that decodes: which of the results of `Deserializes` it is. After a nil error `obj rd` is in the variable `r`. -/
def Returns {R' : Type} (C : Ended Y → Prop) (obj : R' → Obj Y) : Res R' → Prop
  | .refused => ∃ o e, C o ∧ o.err = some (EntryErr.compile e)
  | .failed => ∃ o e, C o ∧ o.err = some (EntryErr.eval e)
  | .value v rd => ∃ o, C o ∧ o.err = none ∧ (∃ t : Tgt, o.result = .value t ∧ t.val = some v) ∧ o.vars "r".toList = some (obj rd)
  | .junk => ∃ o, C o ∧ o.err = none ∧ ∃ t : Tgt, o.result = .value t ∧ t.val = none

/-- A call whose outcomes are those of a compilation and an evaluation. -/
theorem returns_iff {R' : Type} {τ : Setting R'} {C : Ended Y → Prop} {obj : R' → Obj Y} (hobj : ∀ a b, obj a = obj b → a = b) {wr : Schema} {rd : R'}
    (h : ∀ o, C o → (∃ e, compile τ.ord false wr s = .error e ∧ o.err = some (.compile e)) ∨
      ∃ p, compile τ.ord false wr s = .ok p ∧ ((∃ e, Evaluates τ.ro (genOps s.env τ.lim τ.dv) p rd (.new s.env s.root none) (.error e) ∧ o.err = some (.eval e)) ∨
        ∃ rd' t, Evaluates τ.ro (genOps s.env τ.lim τ.dv) p rd (.new s.env s.root none) (.ok (rd', t)) ∧ o.err = none ∧ o.result = .value t ∧ o.vars "r".toList = some (obj rd')))
    (h1 : ∀ e, compile τ.ord false wr s = .error e → ∃ o, C o ∧ o.err = some (.compile e))
    (h2 : ∀ p e, compile τ.ord false wr s = .ok p → Evaluates τ.ro (genOps s.env τ.lim τ.dv) p rd (.new s.env s.root none) (.error e) →
      ∃ o, C o ∧ o.err = some (.eval e))
    (h3 : ∀ p rd' t, compile τ.ord false wr s = .ok p → Evaluates τ.ro (genOps s.env τ.lim τ.dv) p rd (.new s.env s.root none) (.ok (rd', t)) →
      ∃ o, C o ∧ o.err = none ∧ o.result = .value t ∧ o.vars "r".toList = some (obj rd')) (res : Res R') :
    Returns C obj res ↔ Deserializes τ wr s rd res := by
  constructor
  · intro g
    cases res with
    | refused =>
      obtain ⟨o, e, g1, g2⟩ := g
      rcases h o g1 with ⟨e', a, b⟩ | ⟨p, a, ⟨e', b, c⟩ | ⟨rd', t, b, c, -⟩⟩
      · exact .refused a
      · rw [g2] at c; cases c
      · rw [g2] at c; cases c
    | failed =>
      obtain ⟨o, e, g1, g2⟩ := g
      rcases h o g1 with ⟨e', a, b⟩ | ⟨p, a, ⟨e', b, c⟩ | ⟨rd', t, b, c, -⟩⟩
      · rw [g2] at b; cases b
      · exact .failed a b
      · rw [g2] at c; cases c
    | value v rd'' =>
      obtain ⟨o, g1, g2, ⟨t', g3, g4⟩, g5⟩ := g
      rcases h o g1 with ⟨e', a, b⟩ | ⟨p, a, ⟨e', b, c⟩ | ⟨rd', t, b, c, d, e⟩⟩
      · rw [g2] at b; cases b
      · rw [g2] at c; cases c
      · rw [g3] at d; cases d
        rw [g5] at e
        cases hobj _ _ (Option.some.inj e)
        exact .value a b g4
    | junk =>
      obtain ⟨o, g1, g2, t', g3, g4⟩ := g
      rcases h o g1 with ⟨e', a, b⟩ | ⟨p, a, ⟨e', b, c⟩ | ⟨rd', t, b, c, d, e⟩⟩
      · rw [g2] at b; cases b
      · rw [g2] at c; cases c
      · rw [g3] at d; cases d
        exact .junk a b g4
  · intro g
    cases g with
    | refused a => obtain ⟨o, b, c⟩ := h1 _ a; exact ⟨o, _, b, c⟩
    | failed a b => obtain ⟨o, c, d⟩ := h2 _ _ a b; exact ⟨o, _, c, d⟩
    | value a b c => obtain ⟨o, d, e, f, g⟩ := h3 _ _ _ a b; exact ⟨o, d, e, ⟨_, f, c⟩, g⟩
    | junk a b c => obtain ⟨o, d, e, f, g⟩ := h3 _ _ _ a b; exact ⟨o, d, e, _, f, c⟩

/-- The reader of the caller. -/
def plainReader (rd : R) : Obj Y := .reader (.inl rd)

theorem decode_returns {S : Vars Y} {a : Txt} {b : List Byte} {jw js : Json} {sw : Schema} {addr again : Bool} {rd : R} (hr : S "r".toList = some (.reader (.inl rd)))
    (ha : ∀ x, Gives (S.set "t".toList (.value (fresh s))) a x ↔ x = b) (hp : addr = !null) (h1 : read b = some jw) (h2 : parseSchema jw = .ok sw)
    (h3 : read schema = some js) (h4 : parseSchema js = .ok s) (res : Res R) :
    Returns (Runs Y (decodeBody name a addr again) S none) plainReader res ↔ Deserializes σ sw s rd res := by
  have hc := compileBytes_eq (ord := σ.ord) h1 h2 h3 h4
  refine returns_iff (τ := σ) (fun a b e => by cases e; rfl) ?_ ?_ ?_ ?_ res
  · intro o g
    rcases (decode_iff hr ha hp).1 g with ⟨e, g1, rfl⟩ | ⟨p, t', r', er, g1, g2, rfl⟩
    · rw [hc] at g1
      cases hx : compile σ.ord false sw s with
      | error e' => rw [hx] at g1; cases g1; exact .inl ⟨_, rfl, rfl⟩
      | ok p => rw [hx] at g1; cases g1
    · rw [hc] at g1
      cases hx : compile σ.ord false sw s with
      | error e' => rw [hx] at g1; cases g1
      | ok p' =>
        rw [hx] at g1; cases g1
        obtain ⟨r'', rfl, ⟨rfl, g3⟩ | ⟨e, rfl, g3⟩⟩ := evalOn_inl.1 g2
        · exact .inr ⟨_, rfl, .inr ⟨_, _, g3, rfl, rfl, rfl⟩⟩
        · exact .inr ⟨_, rfl, .inl ⟨_, g3, rfl⟩⟩
  · intro e g
    exact ⟨_, (decode_iff hr ha hp).2 (.inl ⟨_, by rw [hc, g], rfl⟩), rfl⟩
  · intro p e g g'
    exact ⟨_, (decode_iff hr ha hp).2 (.inr ⟨p, fresh s, .inl rd, _, by rw [hc, g], .plainErr g', rfl⟩), rfl⟩
  · intro p rd' t g g'
    exact ⟨_, (decode_iff hr ha hp).2 (.inr ⟨p, t, .inl rd', _, by rw [hc, g], .plain g', rfl⟩), rfl, rfl,
      rfl⟩

/-- The variables of a call. -/
theorem start_own (rd : R ⊕ Ocf.Reader R) : (bind ["r".toList] [.reader rd] : Vars Y) "r".toList = some (.reader rd) := vars_self ..

theorem start_given (rd : R ⊕ Ocf.Reader R) (b : List Byte) : (bind ["r".toList, "schema".toList] [.reader rd, .text b] : Vars Y) "r".toList = some (.reader rd) ∧
    ∀ x, Gives ((bind ["r".toList, "schema".toList] [.reader rd, .text b] : Vars Y).set "t".toList (.value (fresh s))) (.var "schema".toList) x ↔ x = b :=
  ⟨vars_self .., var_gives (by rw [vars_other _ _ (by decide)]; rfl)⟩

/-- C103: `DeserializeX(r)` of a record does what `Deserializes` says with the schema that X carries, as writer's and as reader's schema: it returns the value,
having read it from `r`, or an error, in the same cases. `Deserializes` is what C11 and the others about decoding speak of. -/
theorem deserialize_call {js : Json} (h1 : read schema = some js) (h2 : parseSchema js = .ok s) (hn : null = false) (rd : R) (res : Res R) :
    Returns (Calls Y (recordDecode false name) [plainReader rd]) plainReader res ↔ Deserializes σ s s rd res :=
  decode_returns (start_own _) (own_gives (vars_self ..)) (addr := true) (again := false) (by rw [hn]; rfl) h1 h2 h1 h2 res

/-- C103: `DeserializeXFromSchema(r, schema)` of a record: the same, with the given schema as writer's schema. -/
theorem deserialize_from_call {js jw : Json} {sw : Schema} {given : List Byte} (h1 : read schema = some js) (h2 : parseSchema js = .ok s) (h3 : read given = some jw)
    (h4 : parseSchema jw = .ok sw) (hn : null = false) (rd : R) (res : Res R) :
    Returns (Calls Y (recordDecode true name) [plainReader rd, .text given]) plainReader res ↔ Deserializes σ sw s rd res :=
  decode_returns (start_given _ _).1 (start_given _ _).2 (addr := true) (again := false) (by rw [hn]; rfl) h3 h4 h1 h2 res

/-- C103: the same two of a union, with null or without. -/
theorem union_deserialize_call {js : Json} (type : List Tok) (h1 : read schema = some js) (h2 : parseSchema js = .ok s) (rd : R) (res : Res R) :
    Returns (Calls Y (unionDecode false name type null) [plainReader rd]) plainReader res ↔ Deserializes σ s s rd res :=
  decode_returns (start_own _) (own_gives (vars_self ..)) (addr := !null) (again := true) rfl h1 h2 h1 h2 res

theorem union_deserialize_from_call {js jw : Json} {sw : Schema} {given : List Byte} (type : List Tok) (h1 : read schema = some js) (h2 : parseSchema js = .ok s)
    (h3 : read given = some jw) (h4 : parseSchema jw = .ok sw) (rd : R) (res : Res R) :
    Returns (Calls Y (unionDecode true name type null) [plainReader rd, .text given]) plainReader res ↔ Deserializes σ sw s rd res :=
  decode_returns (start_given _ _).1 (start_given _ _).2 (addr := !null) (again := true) rfl h3 h4 h1 h2 res

/-- C103: a schema that is no JSON, or that the parser refuses: `DeserializeXFromSchema` returns the error and has read nothing. -/
theorem bad_schema_call {js : Json} {given : List Byte} {e : EntryErr} (h1 : read schema = some js) (h2 : parseSchema js = .ok s)
    (h3 : parseBytes read given = .error e) (hn : null = false) (rd : R) :
    (∃ o, Calls Y (recordDecode true name) [plainReader rd, .text given] o) ∧
    ∀ o, Calls Y (recordDecode true name) [plainReader rd, .text given] o → o.err = some e ∧ o.vars "r".toList = some (plainReader rd) := by
  have hs : parseBytes read schema = .ok s := by simp only [parseBytes, h1, h2]
  have hc : compileBytes read σ.ord given schema = .error e := by
    unfold compileBytes
    simp only [hs, h3]
  have key := fun o => decode_iff (σ := σ) (L := L) (read := read) (E := E) (name := name) (schema := schema) (s := s) (null := null) (o := o) (again := false) (addr := true)
    (start_given (.inl rd) given).1 (start_given (.inl rd) given).2 (by rw [hn]; rfl)
  refine ⟨⟨_, (key _).2 (.inl ⟨e, hc, rfl⟩)⟩, fun o h => ?_⟩
  rcases (key o).1 h with ⟨e', g1, rfl⟩ | ⟨p, t', r', er, g1, -⟩
  · rw [hc] at g1; cases g1
    exact ⟨rfl, rfl⟩
  · rw [hc] at g1; cases g1

/-! ### Container files -/

/-- C103: `NewXWriter(w, codec, k)` is `container.NewWriter` with the schema that X carries. -/
theorem new_writer_call (w : W) (codec : List Byte) (k : BitVec 64) :
    (∃ o, Calls Y (newWriterFn name) [.other (.sink w), .other (.codec codec), .other (.count k)] o) ∧
    ∀ o, Calls Y (newWriterFn name) [.other (.sink w), .other (.codec codec), .other (.count k)] o → o.err = none ∧
      ∃ E' : Ocf.WEnv W, E'.o = E.o ∧ E'.codec = codec ∧ E'.per = k ∧ E'.schema = schema ∧ o.result = .other (.writer E' (Ocf.newWriter E' L w)) :=
  ⟨⟨⟨_, _, _⟩, newWriter_iff.2 ⟨_, rfl, rfl, rfl, rfl⟩⟩, fun o h => by
    obtain ⟨E', rfl, h1, h2, -⟩ := newWriter_iff.1 h
    exact ⟨h2, { E with codec := codec, per := k, schema := schema }, rfl, rfl, rfl, rfl, h1⟩⟩

/-- The struct that `NewXReader` returns. -/
def openedReader (p : Program) (c : Ocf.Reader R) : Obj Y := .both (.inr c) p

/-- C103: `NewXReader(r)` returns a reader if `container.NewReader` does and the schema in the file can be read as X's schema; otherwise nil and an error. -/
theorem new_reader_call (rd : R) :
    (∀ c p, (∃ o, Calls Y (newReaderFn name) [plainReader rd] o ∧ o.err = none ∧ o.result = openedReader p c) ↔
      Ocf.NewReader σ rd (some c) ∧ compileBytes read σ.ord c.schema schema = .ok p) ∧
    ((∃ o, Calls Y (newReaderFn name) [plainReader rd] o ∧ o.err ≠ none ∧ o.result = .nil) ↔
      Ocf.NewReader σ rd none ∨ ∃ c e, Ocf.NewReader σ rd (some c) ∧ compileBytes read σ.ord c.schema schema = .error e) := by
  refine ⟨fun c p => ⟨?_, fun ⟨h1, h2⟩ => ?_⟩, ?_, ?_⟩
  · rintro ⟨o, h, h1, h2⟩
    rcases newReader_iff h with ⟨-, -, e⟩ | ⟨c', e', -, -, -, e⟩ | ⟨c', p', a, b, d, -⟩
    · rw [h1] at e; cases e
    · rw [h1] at e; cases e
    · rw [h2] at d; cases d; exact ⟨a, b⟩
  · obtain ⟨o, a, b, d⟩ := newReader_runs (L := L) (E := E) (name := name) (s := s) (null := null) h1 h2
    exact ⟨o, a, d, b⟩
  · rintro ⟨o, h, h1, h2⟩
    rcases newReader_iff h with ⟨a, -, -⟩ | ⟨c', e', a, b, -, -⟩ | ⟨c', p', -, -, -, e⟩
    · exact .inl a
    · exact .inr ⟨_, _, a, b⟩
    · exact absurd e h1
  · rintro (h | ⟨c, e, h1, h2⟩)
    · obtain ⟨o, a, b, d⟩ := newReader_failed (L := L) (read := read) (E := E) (name := name) (schema := schema) (s := s) (null := null) h
      exact ⟨o, a, (fun x => by rw [d] at x; cases x), b⟩
    · obtain ⟨o, a, b, d⟩ := newReader_refused (L := L) (E := E) (name := name) (s := s) (null := null) h1 h2
      exact ⟨o, a, (fun x => by rw [d] at x; cases x), b⟩

/-- C103: `Read()` of a reader of a file with the schema `wr` does what `Deserializes` says of reading a record out of the container. -/
theorem read_call {wr : Schema} {p : Program} (hp : compile σ.ord false wr s = .ok p) (hn : null = false) (c : Ocf.Reader R) (res : Res (Ocf.Reader R)) :
    Returns (Calls Y (readFn name) [openedReader p c]) (openedReader p) res ↔ Deserializes (σ.inside L) wr s c res := by
  have ho : compile (σ.inside L).ord false wr s = .ok p := hp
  refine returns_iff (τ := σ.inside L) (fun a b e => by cases e; rfl) ?_ ?_ ?_ ?_ res
  · intro o g
    obtain ⟨t', r', er, g1, rfl⟩ := (readFn_iff hn).1 g
    refine .inr ⟨p, ho, ?_⟩
    obtain ⟨r'', rfl, ⟨rfl, g3⟩ | ⟨e, rfl, g3⟩⟩ := evalOn_inr.1 g1
    · exact .inr ⟨_, _, g3, rfl, rfl, rfl⟩
    · exact .inl ⟨_, g3, rfl⟩
  · intro e g; rw [ho] at g; cases g
  · intro p' e g g'
    rw [ho] at g; cases g
    exact ⟨_, (readFn_iff hn).2 ⟨fresh s, .inr c, _, .fileErr g', rfl⟩, rfl⟩
  · intro p' rd' t g g'
    rw [ho] at g; cases g
    exact ⟨_, (readFn_iff hn).2 ⟨t, .inr rd', _, .file g', rfl⟩, rfl, rfl, rfl⟩

/-- Calls of `Read` one after the other, each with a nil error, and the values they return. `C` is what a call returns. -/
inductive ReadCalls (C : Ocf.Reader R → Res (Ocf.Reader R) → Prop) : Ocf.Reader R → List Val → Ocf.Reader R → Prop where
  | nil {c} : ReadCalls C c [] c
  | cons {c c' c'' v vs} : C c (.value v c') → ReadCalls C c' vs c'' → ReadCalls C c (v :: vs) c''

theorem read_calls {wr : Schema} {p : Program} (hp : compile σ.ord false wr s = .ok p) (hn : null = false) {c c' : Ocf.Reader R} {vs : List Val}
    (h : DecodesAll (σ.inside L) wr s c vs c') :
    ReadCalls (fun c => Returns (Calls Y (readFn name) [openedReader p c]) (openedReader p)) c vs c' := by
  induction h with
  | nil => exact .nil
  | cons h _ ih => exact .cons ((read_call hp hn _ _).2 h) ih
end

section
variable {R W : Type} {σ : Setting R} {view : R → List Byte} {L : Ocf.Libs} {write : Json → List Byte} {read : List Byte → Option Json} {E : Ocf.WEnv W}

/-- C103: from documents to data and back with the generated functions. A record of a generated type that `Serialize` has written is returned by
`DeserializeX`, which leaves what follows. Not for all documents: see C77. `write` and `read` are `json.Marshal` and `json.Unmarshal`. -/
theorem generated_roundtrip_partial {short : Bool} {js : List Json} {n : NS} (h : parseCommand short js = .ok n) (hr : Regular n.env)
    {q : QName} {d : PDef} (hq : n.find q = some d) {fs doc} (hk : d.kind = .record fs doc) (hm : ∀ e, Leads n.find d e → FieldsMovable n.find e)
    (hd : σ.ro.Delivers view) (hl : σ.lim < 2 ^ 63) (bw : Bool) (mo : MapOrder) {v : Val} (hv : HasTy n.env σ.lim v (.ref d.name))
    {j : Json} (hj : recordSchema n d = some j) (hback : read (write j) = some j) (name : Str) :
    ∃ s, parseSchema j = .ok s ∧ (serialize n.env bw mo v (.ref d.name)).2 = true ∧
      ∀ (rd : R) (rest : List Byte), view rd = wire ⟨n.env, .ref d.name⟩ bw mo v ++ rest →
        ∃ rd', Returns (Calls (entryLib σ L read E name (write j) s false) (recordDecode false name) [plainReader rd]) plainReader (.value v rd') ∧ view rd' = rest := by
  obtain ⟨j', s, h1, h2, h3, h4⟩ := document_roundtrip_partial h hr hq hk hm hd hl bw mo hv
  rw [hj] at h1; cases h1
  refine ⟨s, h2, h3, fun rd rest hin => ?_⟩
  obtain ⟨rd', h5, h6⟩ := h4 rd rest hin
  exact ⟨rd', (deserialize_call hback h2 rfl rd _).2 h5, h6⟩

/-- C103: the same between two programs: what a program has written is returned by `DeserializeXFromSchema` of another, given the schema that the type of the first
carries, as schema resolution has it. -/
theorem generated_exchange_partial {short₁ short₂ : Bool} {js₁ js₂ : List Json} {n₁ n₂ : NS}
    (h₁ : parseCommand short₁ js₁ = .ok n₁) (h₂ : parseCommand short₂ js₂ = .ok n₂) (hr₁ : Regular n₁.env) (hr₂ : Regular n₂.env) {q₁ q₂ : QName} {d₁ d₂ : PDef}
    (hq₁ : n₁.find q₁ = some d₁) (hq₂ : n₂.find q₂ = some d₂) {fs₁ doc₁ fs₂ doc₂} (hk₁ : d₁.kind = .record fs₁ doc₁) (hk₂ : d₂.kind = .record fs₂ doc₂)
    (hm₁ : ∀ e, Leads n₁.find d₁ e → FieldsMovable n₁.find e) (hm₂ : ∀ e, Leads n₂.find d₂ e → FieldsMovable n₂.find e)
    (hnull : NullsAgree n₁.env n₂.env (.ref d₁.name) (.ref d₂.name)) (hone : OneReader n₁.env n₂.env)
    (hx : ¬ Refused false n₁.env n₂.env (.ref d₁.name) (some (.ref d₂.name)))
    (hd : σ.ro.Delivers view) (hl : σ.lim < 2 ^ 63) {j₁ j₂ : Json} (hj₁ : recordSchema n₁ d₁ = some j₁) (hj₂ : recordSchema n₂ d₂ = some j₂)
    (hb₁ : read (write j₁) = some j₁) (hb₂ : read (write j₂) = some j₂) (name : Str) :
    ∃ s₂, parseSchema j₂ = .ok s₂ ∧ ∀ (dat : Datum) (e rest : List Byte) (rd : R), dat.within σ.lim → Enc n₁.env dat (.ref d₁.name) e → view rd = e ++ rest →
      match resolve Datum.skippable (fun f => σ.dv (f.norm n₂.env)) n₁.env n₂.env dat (.ref d₁.name) (.ref d₂.name) with
      | some u => ∃ rd', Returns (Calls (entryLib σ L read E name (write j₂) s₂ false) (recordDecode true name) [plainReader rd, .text (write j₁)]) plainReader
          (.value (rootVal u) rd') ∧ view rd' = rest
      | none => Returns (Calls (entryLib σ L read E name (write j₂) s₂ false) (recordDecode true name) [plainReader rd, .text (write j₁)]) plainReader .failed := by
  obtain ⟨j1, s₁, j2, s₂, a1, a2, a3, a4, -, a5⟩ := document_evolution_partial h₁ h₂ hr₁ hr₂ hq₁ hq₂ hk₁ hk₂ hm₁ hm₂ hnull hone hd hl
  rw [hj₁] at a1; cases a1
  rw [hj₂] at a3; cases a3
  refine ⟨s₂, a4, fun dat e rest rd hw he hin => ?_⟩
  have := a5 hx dat e rest rd hw he hin
  cases hres : resolve Datum.skippable (fun f => σ.dv (f.norm n₂.env)) n₁.env n₂.env dat (.ref d₁.name) (.ref d₂.name) with
  | none =>
    rw [hres] at this
    exact (deserialize_from_call hb₂ a4 hb₁ a2 rfl rd _).2 this
  | some u =>
    rw [hres] at this
    obtain ⟨rd', b1, b2⟩ := this
    exact ⟨rd', (deserialize_from_call hb₂ a4 hb₁ a2 rfl rd _).2 b1, b2⟩

/-- C103: container files with the generated functions. A file written by the writer that `NewXWriter` makes (`hw`) is opened by `NewXReader`, and `Read` returns the
records one after the other, and then the error for the end of the file. -/
theorem generated_file_roundtrip_partial {viewW : W → List Byte} {short : Bool} {js : List Json} {n : NS} (h : parseCommand short js = .ok n) (hr : Regular n.env)
    {q : QName} {d : PDef} (hq : n.find q = some d) {fs doc} (hk : d.kind = .record fs doc) (hm : ∀ e, Leads n.find d e → FieldsMovable n.find e)
    {j : Json} (hj : recordSchema n d = some j) (hback : read (write j) = some j) {s : Schema} (hs : parseSchema j = .ok s) (name : Str)
    {w : W} {codec : List Byte} {k : BitVec 64} {o : Ended (entryLib σ L read E name (write j) s false)}
    (hnew : Calls (entryLib σ L read E name (write j) s false) (newWriterFn name) [.other (.sink w), .other (.codec codec), .other (.count k)] o)
    (ho : E.o.Takes viewW) (hL : L.Inverse) (hkn : Ocf.Known codec) (hc : codec.length ≤ 2147483647) (hsc : (write j).length ≤ 2147483647)
    (hd : σ.ro.Delivers view) (hl : σ.lim < 2 ^ 63) (hl2 : 2 ≤ σ.lim)
    {calls : List Call} (hend : calls.getLast? = some .flush) (hv : ∀ x ∈ records calls, HasTy n.env σ.lim x.2 (.ref d.name)) (hw : viewW w = []) :
    ∃ E' : Ocf.WEnv W, o.result = .other (.writer E' (Ocf.newWriter E' L w)) ∧
      ((after E' L ⟨n.env, .ref d.name⟩ w calls).2.any Ocf.writerError = false → (viewW (after E' L ⟨n.env, .ref d.name⟩ w calls).1.w).length < 2 ^ 63 →
      ∃ groups bs, Written E' L ⟨n.env, .ref d.name⟩ calls (viewW (after E' L ⟨n.env, .ref d.name⟩ w calls).1.w) groups [] bs ∧
        (Fits bs → ∀ rd : R, view rd = viewW (after E' L ⟨n.env, .ref d.name⟩ w calls).1.w →
          ∃ c c' p, (∃ o', Calls (entryLib σ L read E name (write j) s false) (newReaderFn name) [plainReader rd] o' ∧ o'.err = none ∧ o'.result = openedReader p c) ∧
            ReadCalls (fun c => Returns (Calls (entryLib σ L read E name (write j) s false) (readFn name) [openedReader p c]) (openedReader p)) c
              ((records calls).map (·.2)) c' ∧
            (HasBytes σ s s → ∃ o', Calls (entryLib σ L read E name (write j) s false) (readFn name) [openedReader p c'] o' ∧ o'.err = some (.eval .eof)))) := by
  obtain ⟨-, E', e1, e2, e3, e4, e5⟩ := (new_writer_call w codec k).2 o hnew
  refine ⟨E', e5, fun hgood hsz => ?_⟩
  obtain ⟨groups, bs, a1, a2⟩ := file_roundtrip_partial (E := E') h hr hq hk hm hj e4 hback (e1 ▸ ho) hL (e2 ▸ hkn) (e2 ▸ hc) (e4 ▸ hsc) hd hl hl2 hend hv hw hgood hsz
  refine ⟨groups, bs, a1, fun hfit rd hin => ?_⟩
  obtain ⟨c, c', s', b1, b2, b3, b4, b5⟩ := a2 hfit rd hin
  rw [hs] at b3; cases b3
  obtain ⟨j', s', g1, g2, -, g3, -⟩ := document_copy h hr hq hk hm
  rw [hj] at g1; cases g1
  rw [hs] at g2; cases g2
  obtain ⟨p, hp⟩ := g3.compiles σ.ord
  have hcb : compileBytes read σ.ord c.schema (write j) = .ok p := by
    rw [compileBytes_eq b2 hs hback hs, hp]
  refine ⟨c, c', p, ((new_reader_call rd).1 c p).2 ⟨b1, hcb⟩, read_calls hp rfl b4, fun hb => ?_⟩
  obtain ⟨p', c1, c2⟩ := b5 hb
  have c1 : compile σ.ord false s s = .ok p' := c1
  rw [hp] at c1; cases c1
  exact ⟨_, (readFn_iff rfl).2 ⟨fresh s, .inr c', _, .fileErr c2, rfl⟩, rfl⟩

end

/-! ### Concrete documents -/

/-- `DeserializeR` of `familyDoc` returns a record that `Serialize` has written, in two reads. -/
example : ∃ n d j s, parseCommand false [familyDoc] = .ok n ∧ n.find qFam = some d ∧ recordSchema n d = some j ∧ parseSchema j = .ok s ∧
    ∃ rd', Returns (Calls (entryLib (demo false) plainLibs (fun _ => some j) (demoWriter Ocf.codecDeflate 2) "R".toList (Ocf.ascii "the schema") s false)
      (recordDecode false "R".toList) [plainReader [wire ⟨n.env, .ref qFam⟩ true .id famVal, [7]]]) plainReader (.value famVal rd') ∧ rd'.flatten = [7] := by
  obtain ⟨n, h1, h2⟩ := readAs_ok (js := [familyDoc]) (p := fun n => documentB qFam n && hasTyB n.env 1000 famVal (.ref qFam)) (by decide +kernel)
  simp only [Bool.and_eq_true] at h2
  obtain ⟨h3, d, fs, doc, h4, h5, h6, h7⟩ := document_of h1 h2.1
  obtain ⟨j, hj⟩ := schema_written h1 h4 h6
  obtain ⟨s, h9, -, h10⟩ := generated_roundtrip_partial (σ := demo false) (view := List.flatten) (L := plainLibs) (E := demoWriter Ocf.codecDeflate 2)
    (write := fun _ => Ocf.ascii "the schema") (read := fun _ => some j) h1 h3 h4 h6 h7 (demo_delivers false) (by show 1000 < 2 ^ 63; decide) true .id (v := famVal)
    (by rw [h5]; exact hasTy_of _ _ h2.2) hj rfl "R".toList
  obtain ⟨rd', h11, h12⟩ := h10 [wire ⟨n.env, .ref qFam⟩ true .id famVal, [7]] [7] (by rw [h5]; simp)
  exact ⟨n, d, j, s, h1, h4, hj, h9, rd', h11, h12⟩

/-- Three records written with `NewRWriter` and read with `NewRReader` and `Read`. -/
example : ∃ (n : NS) (d : PDef) (j : Json) (s : Schema) (E' : Ocf.WEnv (List Byte)) (c c' : Ocf.Reader (List (List Byte))) (p : Program),
    parseCommand false [familyDoc] = .ok n ∧ n.find qFam = some d ∧ recordSchema n d = some j ∧ parseSchema j = .ok s ∧
    (∃ o, Calls (entryLib (demo true) plainLibs (fun _ => some j) (demoWriter Ocf.codecNull 1) "R".toList (Ocf.ascii "the schema") s false) (newWriterFn "R".toList)
      [.other (.sink []), .other (.codec Ocf.codecDeflate), .other (.count 2)] o ∧ o.result = .other (.writer E' (Ocf.newWriter E' plainLibs []))) ∧
    (∃ o, Calls (entryLib (demo true) plainLibs (fun _ => some j) (demoWriter Ocf.codecNull 1) "R".toList (Ocf.ascii "the schema") s false) (newReaderFn "R".toList)
      [plainReader [(after E' plainLibs ⟨n.env, .ref qFam⟩ [] famCalls).1.w]] o ∧ o.err = none ∧ o.result = openedReader p c) ∧
    ReadCalls (fun c => Returns (Calls (entryLib (demo true) plainLibs (fun _ => some j) (demoWriter Ocf.codecNull 1) "R".toList (Ocf.ascii "the schema") s false)
      (readFn "R".toList) [openedReader p c]) (openedReader p)) c [famVal, famVal, famVal] c' := by
  obtain ⟨n, h1, h2⟩ := readAs_ok (js := [familyDoc])
    (p := fun n => documentB qFam n && hasTyB n.env 1000 famVal (.ref qFam) && famWrites n) (by decide +kernel)
  simp only [Bool.and_eq_true, famWrites, decide_eq_true_eq, Bool.not_eq_true'] at h2
  obtain ⟨⟨h2, h2'⟩, h3, h4⟩ := h2
  obtain ⟨h5, d, fs, doc, h6, h7, h8, h9⟩ := document_of h1 h2
  obtain ⟨j, s, hj, hs, -⟩ := document_copy h1 h5 h6 h8 h9
  obtain ⟨⟨o, ho⟩, ho'⟩ := new_writer_call (σ := demo true) (L := plainLibs) (read := fun _ => some j) (E := demoWriter Ocf.codecNull 1) (name := "R".toList)
    (schema := Ocf.ascii "the schema") (s := s) (null := false) [] Ocf.codecDeflate 2
  obtain ⟨E', e1, a⟩ := generated_file_roundtrip_partial (σ := demo true) (L := plainLibs) (write := fun _ => Ocf.ascii "the schema") (read := fun _ => some j)
    (E := demoWriter Ocf.codecNull 1) h1 h5 h6 h8 h9 hj rfl hs "R".toList ho (boundedWriter_takes 100000)
    plainLibs_inverse demo_known (by decide +kernel) (by decide +kernel) (demo_delivers true) (by decide)
    (by decide) (calls := famCalls) rfl (famCalls_records fun _ => by rw [h7]; exact hasTy_of _ _ h2') rfl
  obtain ⟨-, E2, g1, g2, g3, g4, g5⟩ := ho' o ho
  have hE : E' = demoWriter Ocf.codecDeflate 2 := by
    obtain ⟨E3, k1, k2, -⟩ := newWriter_iff.1 ho
    rw [e1] at k2
    injection k2 with k2
    injection k2 with k2 _
    rw [k2, k1]
    rfl
  subst hE
  rw [h7] at a
  obtain ⟨groups, bs, a1, a2⟩ := a h3 (Nat.lt_trans h4 (by decide))
  obtain ⟨c, c', p, b1, b2, -⟩ := a2 (written_fits a1 (by exact Nat.le_of_lt (Nat.lt_trans h4 (by decide))))
    [(after (demoWriter Ocf.codecDeflate 2) plainLibs ⟨n.env, .ref qFam⟩ [] famCalls).1.w] (by simp)
  exact ⟨n, d, j, s, _, c, c', p, h1, h6, hj, hs, ⟨o, ho, e1⟩, b1, b2⟩

end Verif.Props
