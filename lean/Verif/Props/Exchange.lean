import Verif.Props.Document
import Verif.Props.ContainerRound
/-
C93: programs exchange container files. One program is generated from some documents and writes records to a
file; another is generated from other documents, opens the file and reads the records with the schema in the
file. `write` and `read` are `json.Marshal` and `json.Unmarshal`.
-/
namespace Verif.Props
open Verif Spec Verif.Ocf

theorem pairs_choose {α β : Type} {P : α → β → Prop} : ∀ (l : List α), (∀ a ∈ l, ∃ b, P a b) → ∃ m, Pairs P l m
  | [], _ => ⟨[], .nil⟩
  | a :: l, h => by
    obtain ⟨b, hb⟩ := h a (by simp)
    obtain ⟨m, hm⟩ := pairs_choose l fun x hx => h x (by simp [hx])
    exact ⟨b :: m, .cons hb hm⟩

/-- A choice for each member of the groups of a list. -/
theorem groups_choose {α β : Type} {P : α → β → Prop} : ∀ (g : List (List α)), (∀ a ∈ g.flatten, ∃ b, P a b) →
    ∃ m, Pairs (Pairs P) g m
  | [], _ => ⟨[], .nil⟩
  | a :: l, h => by
    obtain ⟨b, hb⟩ := pairs_choose a fun x hx => h x (by simp [hx])
    obtain ⟨m, hm⟩ := groups_choose l fun x hx => h x (by simp only [List.flatten_cons, List.mem_append]; exact .inr hx)
    exact ⟨b :: m, .cons hb hm⟩

theorem pairs_append {α β : Type} {P : α → β → Prop} {a a' : List α} {b b' : List β} (h : Pairs P a b) (h' : Pairs P a' b') :
    Pairs P (a ++ a') (b ++ b') := by
  induction h with
  | nil => exact h'
  | cons h _ ih => exact .cons h ih

theorem pairs_flatten {α β : Type} {P : α → β → Prop} {g : List (List α)} {m : List (List β)} (h : Pairs (Pairs P) g m) :
    Pairs P g.flatten m.flatten := by
  induction h with
  | nil => exact .nil
  | cons h _ ih => exact pairs_append h ih

section
variable {W : Type} {E : WEnv W} {L : Libs} {viewW : W → List Byte} {R : Type} {σ : Setting R} {view : R → List Byte}

/-- A file written with a schema, read with schemas for which each record's encoding has a reading. -/
theorem file_read (ho : E.o.Takes viewW) (hL : L.Inverse) (hk : Known E.codec)
    (hc : E.codec.length ≤ 2147483647) (hsc : E.schema.length ≤ 2147483647)
    (hd : σ.ro.Delivers view) (hl : σ.lim < 2 ^ 63) (hl2 : 2 ≤ σ.lim) {s s₁ s₂ : Schema}
    {calls : List Call} (hend : calls.getLast? = some .flush) (hv : ∀ x ∈ records calls, serializes s x = true)
    {P : MapOrder × Val → Val → Prop} (hr : ∀ x ∈ records calls, ∃ v, P x v ∧ ReadsTo σ s₁ s₂ (enc s x) v)
    {w : W} (hw : viewW w = []) (hgood : (after E L s w calls).2.any writerError = false)
    (hsz : (viewW (after E L s w calls).1.w).length < 2 ^ 63) :
    ∃ groups bs, Written E L s calls (viewW (after E L s w calls).1.w) groups [] bs ∧
      (Fits bs → ∀ rd : R, view rd = viewW (after E L s w calls).1.w →
        ∃ c c' vs, NewReader σ rd (some c) ∧ c.schema = E.schema ∧ Pairs P (records calls) vs ∧
          DecodesAll (σ.inside L) s₁ s₂ c vs c' ∧
          (HasBytes σ s₁ s₂ → ReadError (σ.inside L) s₁ s₂ c' .eof)) := by
  obtain ⟨⟨groups, pend, bs, hwr⟩, _⟩ := written ho hL hk hc hsc s calls hw hgood hsz
  have hp : pend = [] := by
    have h1 := hwr.flushed hend
    rw [List.countP_eq_zero] at h1
    cases pend with
    | nil => rfl
    | cons x p => exact absurd (hv x (by rw [← hwr.order]; simp)) (h1 x (by simp))
  subst hp
  refine ⟨groups, bs, hwr, fun hfit rd hin => ?_⟩
  obtain ⟨es, h1, h2⟩ := hwr.file (by rintro rfl; cases hend)
  have hord := hwr.order
  rw [List.append_nil] at hord
  obtain ⟨vals, hvals⟩ := groups_choose (P := fun x v => P x v ∧ ReadsTo σ s₁ s₂ (enc s x) v) groups (by rw [hord]; exact hr)
  -- the encodings with their readings
  have key : ∃ gs : List (List (List Byte × Val)), Pairs (fun g b => Packs L E.codec (g.map (·.1)).flatten b.2) gs bs ∧
      (∀ g ∈ gs, ∀ x ∈ g, ReadsTo σ s₁ s₂ x.1 x.2) ∧ gs.flatten.map (·.2) = vals.flatten := by
    have hb := hwr.blocks
    clear hwr h2 hord hfit hin
    induction hvals generalizing bs with
    | nil => cases hb; exact ⟨[], .nil, by simp, rfl⟩
    | cons hg _ ih =>
      rename_i g vg gs0 vs0 _
      cases hb with
      | cons hb1 hb2 =>
        obtain ⟨gs, i1, i2, i3⟩ := ih _ hb2
        have hz : ∃ z : List (List Byte × Val), z.map (·.1) = g.map (enc s) ∧ z.map (·.2) = vg ∧ ∀ x ∈ z, ReadsTo σ s₁ s₂ x.1 x.2 := by
          clear hb1 hb2 ih i1 i2 i3
          induction hg with
          | nil => exact ⟨[], rfl, rfl, by simp⟩
          | cons h _ ih =>
            rename_i a b _ _ _
            obtain ⟨z, j1, j2, j3⟩ := ih
            exact ⟨(enc s a, b) :: z, by simp [j1], by simp [j2], by
              intro x hx
              rcases List.mem_cons.1 hx with rfl | hx
              · exact h.2
              · exact j3 x hx⟩
        obtain ⟨z, j1, j2, j3⟩ := hz
        refine ⟨z :: gs, .cons (by rw [j1]; exact hb1.2.2.2) i1, ?_, by simp [j2, i3]⟩
        intro g' hg' x hx
        rcases List.mem_cons.1 hg' with rfl | hg'
        · exact j3 x hx
        · exact i2 g' hg' x hx
  obtain ⟨gs, k1, k2, k3⟩ := key
  obtain ⟨c, c', a1, a2, a3, a4⟩ := container_read (L := L) (w := s₁) (r := s₂) hd hl (by decide +kernel)
    (names_written h1 hc hsc) (by rw [h1.length_eq]; exact hl2) h2 hfit k1 k2 hin
  refine ⟨c, c', vals.flatten, a1, a2, ?_, k3 ▸ a3, a4⟩
  have := pairs_flatten hvals
  rw [hord] at this
  exact this.mono fun _ _ h => h.1

variable {write : Json → List Byte} {read : List Byte → Option Json}

/-- C93: the program that wrote the file reads it. -/
theorem file_roundtrip_partial {short : Bool} {js : List Json} {n : NS} (h : parseCommand short js = .ok n) (hr : Regular n.env)
    {q : QName} {d : PDef} (hq : n.find q = some d) {fs doc} (hk : d.kind = .record fs doc)
    (hm : ∀ e, Leads n.find d e → FieldsMovable n.find e)
    -- the writer that `NewXWriter` makes
    {j : Json} (hj : recordSchema n d = some j) (hE : E.schema = write j) (hback : read (write j) = some j)
    (ho : E.o.Takes viewW) (hL : L.Inverse) (hkn : Known E.codec)
    (hc : E.codec.length ≤ 2147483647) (hsc : E.schema.length ≤ 2147483647)
    (hd : σ.ro.Delivers view) (hl : σ.lim < 2 ^ 63) (hl2 : 2 ≤ σ.lim)
    {calls : List Call} (hend : calls.getLast? = some .flush) (hv : ∀ x ∈ records calls, HasTy n.env σ.lim x.2 (.ref d.name))
    {w : W} (hw : viewW w = []) (hgood : (after E L ⟨n.env, .ref d.name⟩ w calls).2.any writerError = false)
    (hsz : (viewW (after E L ⟨n.env, .ref d.name⟩ w calls).1.w).length < 2 ^ 63) :
    ∃ groups bs, Written E L ⟨n.env, .ref d.name⟩ calls (viewW (after E L ⟨n.env, .ref d.name⟩ w calls).1.w) groups [] bs ∧
      (Fits bs → ∀ rd : R, view rd = viewW (after E L ⟨n.env, .ref d.name⟩ w calls).1.w →
        ∃ c c' s, NewReader σ rd (some c) ∧ read c.schema = some j ∧ parseSchema j = .ok s ∧
          DecodesAll (σ.inside L) s s c ((records calls).map (·.2)) c' ∧
          (HasBytes σ s s → ReadError (σ.inside L) s s c' .eof)) := by
  obtain ⟨j', s, h1, h2, -⟩ := document_copy h hr hq hk hm
  rw [hj] at h1; cases h1
  have hrd : ∀ x ∈ records calls, ∃ v, (v = x.2) ∧ ReadsTo σ s s (enc ⟨n.env, .ref d.name⟩ x) v := by
    intro x hx
    refine ⟨x.2, rfl, fun rest => ?_⟩
    obtain ⟨j2, s2, g1, g2, -, g3⟩ := document_roundtrip_partial (σ := σ.flat) h hr hq hk hm (flatOps_delivers false) hl false x.1 (hv x hx)
    rw [hj] at g1; cases g1
    rw [h2] at g2; cases g2
    obtain ⟨rd', g4, g5⟩ := g3 (enc ⟨n.env, .ref d.name⟩ x ++ rest) rest rfl
    subst g5
    exact g4
  have hser : ∀ x ∈ records calls, serializes ⟨n.env, .ref d.name⟩ x = true := fun x hx => by
    obtain ⟨-, -, -, -, -, h6, -⟩ := ser_enc n.env false x.1 hl x.2 (.ref d.name) [] (hv x hx)
    exact h6
  obtain ⟨groups, bs, a1, a2⟩ := file_read ho hL hkn hc hsc hd hl hl2 hend hser hrd hw hgood hsz
  refine ⟨groups, bs, a1, fun hfit rd hin => ?_⟩
  obtain ⟨c, c', vs, b1, b2, b3, b4, b5⟩ := a2 hfit rd hin
  have : vs = (records calls).map (·.2) := by
    clear a1 a2 hrd hser hgood hsz hv b4 hin hw
    generalize records calls = l at b3 ⊢
    induction b3 with
    | nil => rfl
    | cons h _ ih => rw [h, ih]; rfl
  exact ⟨c, c', s, b1, by rw [b2, hE]; exact hback, h2, this ▸ b4, b5⟩

/-- C93: a program generated from other documents reads the file, with the schema in it: each record as
schema resolution between the two definitions gives it. -/
theorem file_exchange_partial {short₁ short₂ : Bool} {js₁ js₂ : List Json} {n₁ n₂ : NS}
    (h₁ : parseCommand short₁ js₁ = .ok n₁) (h₂ : parseCommand short₂ js₂ = .ok n₂)
    (hr₁ : Regular n₁.env) (hr₂ : Regular n₂.env) {q₁ q₂ : QName} {d₁ d₂ : PDef}
    (hq₁ : n₁.find q₁ = some d₁) (hq₂ : n₂.find q₂ = some d₂) {fs₁ doc₁ fs₂ doc₂}
    (hk₁ : d₁.kind = .record fs₁ doc₁) (hk₂ : d₂.kind = .record fs₂ doc₂)
    (hm₁ : ∀ e, Leads n₁.find d₁ e → FieldsMovable n₁.find e) (hm₂ : ∀ e, Leads n₂.find d₂ e → FieldsMovable n₂.find e)
    (hnull : NullsAgree n₁.env n₂.env (.ref d₁.name) (.ref d₂.name)) (hone : OneReader n₁.env n₂.env)
    (hx : ¬ Refused false n₁.env n₂.env (.ref d₁.name) (some (.ref d₂.name)))
    {j₁ : Json} (hj : recordSchema n₁ d₁ = some j₁) (hE : E.schema = write j₁) (hback : read (write j₁) = some j₁)
    (ho : E.o.Takes viewW) (hL : L.Inverse) (hkn : Known E.codec)
    (hc : E.codec.length ≤ 2147483647) (hsc : E.schema.length ≤ 2147483647)
    (hd : σ.ro.Delivers view) (hl : σ.lim < 2 ^ 63) (hl2 : 2 ≤ σ.lim)
    {calls : List Call} (hend : calls.getLast? = some .flush) (hv : ∀ x ∈ records calls, HasTy n₁.env σ.lim x.2 (.ref d₁.name))
    (hu : ∀ x ∈ records calls, ∀ dat, Repr n₁.env x.2 (.ref d₁.name) dat →
      (resolve Datum.skippable (fun f => σ.dv (f.norm n₂.env)) n₁.env n₂.env dat (.ref d₁.name) (.ref d₂.name)).isSome)
    {w : W} (hw : viewW w = []) (hgood : (after E L ⟨n₁.env, .ref d₁.name⟩ w calls).2.any writerError = false)
    (hsz : (viewW (after E L ⟨n₁.env, .ref d₁.name⟩ w calls).1.w).length < 2 ^ 63) :
    ∃ groups bs, Written E L ⟨n₁.env, .ref d₁.name⟩ calls (viewW (after E L ⟨n₁.env, .ref d₁.name⟩ w calls).1.w) groups [] bs ∧
      (Fits bs → ∀ rd : R, view rd = viewW (after E L ⟨n₁.env, .ref d₁.name⟩ w calls).1.w →
        ∃ c c' s₁ j₂ s₂ vs, NewReader σ rd (some c) ∧ read c.schema = some j₁ ∧ parseSchema j₁ = .ok s₁ ∧
          recordSchema n₂ d₂ = some j₂ ∧ parseSchema j₂ = .ok s₂ ∧
          Pairs (fun x v => ∃ dat u, Repr n₁.env x.2 (.ref d₁.name) dat ∧
            resolve Datum.skippable (fun f => σ.dv (f.norm n₂.env)) n₁.env n₂.env dat (.ref d₁.name) (.ref d₂.name) = some u ∧
            v = rootVal u) (records calls) vs ∧
          DecodesAll (σ.inside L) s₁ s₂ c vs c' ∧
          (HasBytes σ s₁ s₂ → ReadError (σ.inside L) s₁ s₂ c' .eof)) := by
  obtain ⟨j1, s₁, j₂, s₂, g1, g2, g3, g4, -, g5⟩ := document_evolution_partial (σ := σ.flat) (view := fun r => r) h₁ h₂ hr₁ hr₂ hq₁ hq₂ hk₁ hk₂ hm₁ hm₂
    hnull hone (flatOps_delivers false) hl
  rw [hj] at g1; cases g1
  have g5 := g5 hx
  have hrd : ∀ x ∈ records calls, ∃ v, (∃ dat u, Repr n₁.env x.2 (.ref d₁.name) dat ∧
      resolve Datum.skippable (fun f => σ.dv (f.norm n₂.env)) n₁.env n₂.env dat (.ref d₁.name) (.ref d₂.name) = some u ∧
      v = rootVal u) ∧ ReadsTo σ s₁ s₂ (enc ⟨n₁.env, .ref d₁.name⟩ x) v := by
    intro x hx
    obtain ⟨dat, e1, e2, e3⟩ := document_written (σ := σ) hl false x.1 (hv x hx)
    obtain ⟨u, e4⟩ := Option.isSome_iff_exists.1 (hu x hx dat e1)
    refine ⟨rootVal u, ⟨dat, u, e1, e4, rfl⟩, fun rest => ?_⟩
    have := g5 dat _ rest (enc ⟨n₁.env, .ref d₁.name⟩ x ++ rest) e2 e3 rfl
    have e4' : resolve Datum.skippable (fun f => σ.flat.dv (f.norm n₂.env)) n₁.env n₂.env dat (.ref d₁.name) (.ref d₂.name) = some u := e4
    rw [e4'] at this
    obtain ⟨rd', f1, f2⟩ := this
    subst f2
    exact f1
  have hser : ∀ x ∈ records calls, serializes ⟨n₁.env, .ref d₁.name⟩ x = true := fun x hx => by
    obtain ⟨-, -, -, -, -, h6, -⟩ := ser_enc n₁.env false x.1 hl x.2 (.ref d₁.name) [] (hv x hx)
    exact h6
  obtain ⟨groups, bs, a1, a2⟩ := file_read ho hL hkn hc hsc hd hl hl2 hend hser hrd hw hgood hsz
  refine ⟨groups, bs, a1, fun hfit rd hin => ?_⟩
  obtain ⟨c, c', vs, b1, b2, b3, b4, b5⟩ := a2 hfit rd hin
  exact ⟨c, c', s₁, j₂, s₂, vs, b1, by rw [b2, hE]; exact hback, g2, g3, g4, b3, b4, b5⟩
end

/-! ### Concrete documents -/

/-- Three records of `x.R`, two in a block. -/
def famCalls : List Call := [.record (.id, famVal), .record (.rev, famVal), .flush, .record (.id, famVal), .flush]

theorem famCalls_records {P : MapOrder × Val → Prop} (h : ∀ mo, P (mo, famVal)) : ∀ x ∈ records famCalls, P x := by
  intro x hx
  simp only [famCalls, records, List.filterMap_cons, List.filterMap_nil, List.mem_cons, List.not_mem_nil, or_false] at hx
  rcases hx with rfl | rfl | rfl <;> exact h _

/-- The writer meets no error, and the file is small. -/
def famWrites (n : NS) : Bool :=
  !(after (demoWriter codecDeflate 2) plainLibs ⟨n.env, .ref qFam⟩ [] famCalls).2.any writerError &&
    decide ((after (demoWriter codecDeflate 2) plainLibs ⟨n.env, .ref qFam⟩ [] famCalls).1.w.length < 1000)

/-- The hypotheses of `file_roundtrip_partial`, and what it gives: three records of `x.R` of `familyDoc`. -/
example : ∃ n d j s c c', parseCommand false [familyDoc] = .ok n ∧ n.find qFam = some d ∧ recordSchema n d = some j ∧
    parseSchema j = .ok s ∧
    NewReader (demo true) [(after (demoWriter codecDeflate 2) plainLibs ⟨n.env, .ref qFam⟩ [] famCalls).1.w] (some c) ∧
    DecodesAll ((demo true).inside plainLibs) s s c [famVal, famVal, famVal] c' := by
  obtain ⟨n, h1, h2⟩ := readAs_ok (js := [familyDoc])
    (p := fun n => documentB qFam n && hasTyB n.env 1000 famVal (.ref qFam) && famWrites n) (by decide +kernel)
  simp only [Bool.and_eq_true, famWrites, decide_eq_true_eq, Bool.not_eq_true'] at h2
  obtain ⟨⟨h2, h2'⟩, h3, h4⟩ := h2
  obtain ⟨h5, d, fs, doc, h6, h7, h8, h9⟩ := document_of h1 h2
  obtain ⟨j, hj⟩ := schema_written h1 h6 h8
  obtain ⟨groups, bs, a1, a2⟩ := file_roundtrip_partial (σ := demo true) (write := fun _ => ascii "the schema") (read := fun _ => some j)
    (E := demoWriter codecDeflate 2) h1 h5 h6 h8 h9 hj rfl rfl (boundedWriter_takes 100000)
    plainLibs_inverse demo_known (by decide +kernel) (by decide +kernel) (demo_delivers true) (by decide)
    (by decide) (calls := famCalls) rfl (famCalls_records fun _ => by rw [h7]; exact hasTy_of _ _ h2') (w := []) rfl
    (by rw [h7]; exact h3) (by rw [h7]; exact Nat.lt_trans h4 (by decide))
  rw [h7] at a1 a2
  obtain ⟨c, c', s, b1, -, b3, b4, -⟩ := a2 (written_fits a1 (by exact Nat.le_of_lt (Nat.lt_trans h4 (by decide))))
    [(after (demoWriter codecDeflate 2) plainLibs ⟨n.env, .ref qFam⟩ [] famCalls).1.w] (by simp)
  exact ⟨n, d, j, s, c, c', h1, h6, hj, b3, b1, b4⟩

mutual
/-- The datum of a value without maps. -/
def datumOf (env : Env) : Val → Ty → Option Datum
  | .null, _ => some .null
  | .bool b, _ => some (.bool b)
  | .int v, _ => some (.int v)
  | .long v, _ => some (.long v)
  | .float v, _ => some (.float v)
  | .double v, _ => some (.double v)
  | .bytes v, _ => some (.bytes v)
  | .string v, _ => some (.string v)
  | .fixed v, _ => some (.fixed v)
  | .enum v, _ => some (.enum v.toInt)
  | .array vs, .array t => (datumsOf env vs t).map .array
  | .nil, .union ts => (nullIndex ts).map fun i => .union i .null
  | .union tag (some v), .union ts => match ts[tag.toNat]? with
    | some u => (datumOf env v u).map (.union tag.toNat)
    | none => none
  | .record vs, .ref q => match env.find q with
    | some d => match d.kind with
      | .record fs => (fieldDatums env vs fs).map .record
      | _ => none
    | none => none
  | _, _ => none
def datumsOf (env : Env) : List Val → Ty → Option (List Datum)
  | [], _ => some []
  | v :: vs, t => match datumOf env v t, datumsOf env vs t with
    | some d, some ds => some (d :: ds)
    | _, _ => none
def fieldDatums (env : Env) : List Val → List Field → Option (List Datum)
  | [], _ => some []
  | v :: vs, f :: fs => match datumOf env v f.ty, fieldDatums env vs fs with
    | some d, some ds => some (d :: ds)
    | _, _ => none
  | _ :: _, [] => none
end

mutual
theorem repr_datum {env : Env} : ∀ (v : Val) (t : Ty) (d d' : Datum), Repr env v t d → datumOf env v t = some d' → d = d'
  | .null, _, d, d', h, h' => by simp only [datumOf, Option.some.injEq] at h'; rw [← h']; exact h
  | .bool _, _, d, d', h, h' => by simp only [datumOf, Option.some.injEq] at h'; rw [← h']; exact h
  | .int _, _, d, d', h, h' => by simp only [datumOf, Option.some.injEq] at h'; rw [← h']; exact h
  | .long _, _, d, d', h, h' => by simp only [datumOf, Option.some.injEq] at h'; rw [← h']; exact h
  | .float _, _, d, d', h, h' => by simp only [datumOf, Option.some.injEq] at h'; rw [← h']; exact h
  | .double _, _, d, d', h, h' => by simp only [datumOf, Option.some.injEq] at h'; rw [← h']; exact h
  | .bytes _, _, d, d', h, h' => by simp only [datumOf, Option.some.injEq] at h'; rw [← h']; exact h
  | .string _, _, d, d', h, h' => by simp only [datumOf, Option.some.injEq] at h'; rw [← h']; exact h
  | .fixed _, _, d, d', h, h' => by simp only [datumOf, Option.some.injEq] at h'; rw [← h']; exact h
  | .enum _, _, d, d', h, h' => by simp only [datumOf, Option.some.injEq] at h'; rw [← h']; exact h
  | .array vs, t, d, d', h, h' => by
    obtain ⟨it, ds, rfl, h1, rfl⟩ := h
    simp only [datumOf, Option.map_eq_some_iff] at h'
    obtain ⟨ds', h2, rfl⟩ := h'
    rw [reprAll_datums vs it ds ds' h1 h2]
  | .map es, t, d, d', h, h' => by
    obtain ⟨it, _, _, rfl, -⟩ := h
    simp [datumOf] at h'
  | .nil, t, d, d', h, h' => by
    obtain ⟨ts, i, rfl, h1, rfl⟩ := h
    simp only [datumOf, h1, Option.map_some, Option.some.injEq] at h'
    exact h'
  | .union _ none, t, d, d', h, h' => h.elim
  | .union tag (some v), t, d, d', h, h' => by
    obtain ⟨ts, u, d1, rfl, h1, h2, rfl⟩ := h
    simp only [datumOf, h1, Option.map_eq_some_iff] at h'
    obtain ⟨d2, h3, rfl⟩ := h'
    rw [repr_datum v u d1 d2 h2 h3]
  | .record vs, t, d, d', h, h' => by
    obtain ⟨q, df, fs, ds, rfl, h1, h2, h3, rfl⟩ := h
    simp only [datumOf, h1, h2, Option.map_eq_some_iff] at h'
    obtain ⟨ds', h4, rfl⟩ := h'
    rw [reprFields_datums vs fs ds ds' h3 h4]
theorem reprAll_datums {env : Env} : ∀ (vs : List Val) (t : Ty) (ds ds' : List Datum), ReprAll env vs t ds → datumsOf env vs t = some ds' → ds = ds'
  | [], _, ds, ds', h, h' => by simp only [datumsOf, Option.some.injEq] at h'; rw [← h']; exact h
  | v :: vs, t, ds, ds', h, h' => by
    obtain ⟨d, ds1, rfl, h1, h2⟩ := h
    simp only [datumsOf] at h'
    split at h'
    · rename_i e es he hes
      cases h'
      rw [repr_datum v t d e h1 he, reprAll_datums vs t ds1 es h2 hes]
    · cases h'
theorem reprFields_datums {env : Env} : ∀ (vs : List Val) (fs : List Field) (ds ds' : List Datum), ReprFields env vs fs ds →
    fieldDatums env vs fs = some ds' → ds = ds'
  | [], _, ds, ds', h, h' => by simp only [fieldDatums, Option.some.injEq] at h'; rw [← h']; exact h
  | v :: vs, fs, ds, ds', h, h' => by
    obtain ⟨f, fs', d, ds1, rfl, rfl, h1, h2⟩ := h
    simp only [fieldDatums] at h'
    split at h'
    · rename_i e es he hes
      cases h'
      rw [repr_datum v f.ty d e h1 he, reprFields_datums vs fs' ds1 es h2 hes]
    · cases h'
end

/-- The hypotheses of `file_exchange_partial`, and what it gives: the file above, read by a program generated
from `familyLater`. -/
example : ∃ n₁ n₂ d₁ d₂ j₁ j₂ s₁ s₂ c c', parseCommand false [familyDoc] = .ok n₁ ∧ parseCommand false [familyLater] = .ok n₂ ∧
    n₁.find qFam = some d₁ ∧ n₂.find qFam = some d₂ ∧ recordSchema n₁ d₁ = some j₁ ∧ parseSchema j₁ = .ok s₁ ∧
    recordSchema n₂ d₂ = some j₂ ∧ parseSchema j₂ = .ok s₂ ∧
    NewReader (demo true) [(after (demoWriter codecDeflate 2) plainLibs ⟨n₁.env, .ref qFam⟩ [] famCalls).1.w] (some c) ∧
    DecodesAll ((demo true).inside plainLibs) s₁ s₂ c [famLaterVal, famLaterVal, famLaterVal] c' := by
  obtain ⟨n₁, n₂, h1, h2, h3⟩ := readAs_both (js₁ := [familyDoc]) (js₂ := [familyLater]) (p := fun n₁ n₂ =>
    documentB qFam n₁ && documentB qFam n₂ && suitedB ⟨n₁.env, .ref qFam⟩ ⟨n₂.env, .ref qFam⟩ &&
    (compileFuel 100 Orders.id false ⟨n₁.env, .ref qFam⟩ ⟨n₂.env, .ref qFam⟩).isOk &&
    hasTyB n₁.env 1000 famVal (.ref qFam) && famWrites n₁ &&
    ((datumOf n₁.env famVal (.ref qFam)).any fun dat => resolvesTo
      (resolve Datum.skippable (fun _ => .int 7) n₁.env n₂.env dat (.ref qFam) (.ref qFam)) famLaterVal))
    (by decide +kernel)
  simp only [Bool.and_eq_true] at h3
  obtain ⟨⟨⟨⟨⟨⟨a1, a2⟩, a3⟩, a4⟩, a5⟩, a6⟩, a7⟩ := h3
  simp only [famWrites, Bool.and_eq_true, decide_eq_true_eq, Bool.not_eq_true'] at a6
  obtain ⟨a6, a6'⟩ := a6
  obtain ⟨b1, d₁, fs₁, doc₁, b2, b3, b4, b5⟩ := document_of h1 a1
  obtain ⟨c1, d₂, fs₂, doc₂, c2, c3, c4, c5⟩ := document_of h2 a2
  have hs := suited_of a3
  obtain ⟨j, hj⟩ := schema_written h1 b2 b4
  have hno : ¬ Refused false n₁.env n₂.env (.ref d₁.name) (some (.ref d₂.name)) := by
    rw [b3, c3]
    intro hx
    obtain ⟨prog, hp⟩ := compiles_of a4
    obtain ⟨e, he⟩ := (refused_iff hs Orders.id).2 hx
    rw [hp] at he; cases he
  have hdat : ∀ dat, Repr n₁.env famVal (.ref d₁.name) dat → resolve Datum.skippable (fun f => (demo true).dv (f.norm n₂.env)) n₁.env n₂.env
      dat (.ref d₁.name) (.ref d₂.name) = some famLaterVal := by
    intro dat h
    rw [b3] at h
    rw [b3, c3]
    cases hd : datumOf n₁.env famVal (.ref qFam) with
    | none => rw [hd] at a7; cases a7
    | some dat' =>
      rw [hd] at a7
      rw [repr_datum _ _ _ _ h hd]
      exact resolvesTo_eq a7
  obtain ⟨groups, bs, g1, g2⟩ := file_exchange_partial (σ := demo true) (write := fun _ => ascii "the schema") (read := fun _ => some j)
    (E := demoWriter codecDeflate 2) h1 h2 b1 c1 b2 c2 b4 c4 b5 c5 (by rw [b3, c3]; exact hs.nulls) hs.one hno hj rfl rfl
    (boundedWriter_takes 100000) plainLibs_inverse demo_known (by decide +kernel) (by decide +kernel) (demo_delivers true) (by decide)
    (by decide) (calls := famCalls) rfl (famCalls_records fun _ => by rw [b3]; exact hasTy_of _ _ a5)
    (famCalls_records fun _ dat h => by rw [hdat dat h]; rfl) (w := []) rfl
    (by rw [b3]; exact a6) (by rw [b3]; exact Nat.lt_trans a6' (by decide))
  rw [b3] at g1 g2
  obtain ⟨c, c', s₁, j₂, s₂, vs, e1, -, e3, e4, e5, e6, e7, -⟩ := g2 (written_fits g1 (by exact Nat.le_of_lt (Nat.lt_trans a6' (by decide))))
    [(after (demoWriter codecDeflate 2) plainLibs ⟨n₁.env, .ref qFam⟩ [] famCalls).1.w] (by simp)
  have hval : ∀ {x : MapOrder × Val} {v}, x.2 = famVal → (∃ dat u, Repr n₁.env x.2 (.ref qFam) dat ∧
      resolve Datum.skippable (fun f => (demo true).dv (f.norm n₂.env)) n₁.env n₂.env dat (.ref qFam) (.ref d₂.name) = some u ∧
      v = rootVal u) → v = famLaterVal := by
    rintro x v hx ⟨dat, u, k1, k2, rfl⟩
    rw [hx] at k1
    have := hdat dat (by rw [b3]; exact k1)
    rw [b3, k2] at this
    cases this
    rfl
  have : vs = [famLaterVal, famLaterVal, famLaterVal] := by
    simp only [famCalls, records, List.filterMap_cons, List.filterMap_nil] at e6
    cases e6 with
    | cons k1 e6 => cases e6 with
      | cons k2 e6 => cases e6 with
        | cons k3 e6 => cases e6; rw [hval rfl k1, hval rfl k2, hval rfl k3]
  exact ⟨n₁, n₂, d₁, d₂, j, j₂, s₁, s₂, c, c', h1, h2, b2, c2, hj, e3, e4, e5, e1, this ▸ e7⟩

end Verif.Props
