import Verif.Props.Exchange
import Verif.Props.Generic
import Verif.Props.Soe
import Verif.Props.Fingerprint
/-
C94: programs exchange messages in single-object encoding. The sender is generated from some documents, the
receiver from other ones; the receiver finds the sender's schema by the fingerprint in the message.

C95: what generated code has written is read by the generic codec, made from the schema the type carries.
-/
namespace Verif.Props
open Verif Spec

/-! ### C94 -/

/-- The fingerprint that a generated record writes is that of the schema the type carries, and has 8 bytes. -/
theorem document_fingerprint {short : Bool} {js : List Json} {n : NS} (h : parseCommand short js = .ok n) (hr : Regular n.env)
    {q : QName} {d : PDef} (hq : n.find q = some d) {fs doc} (hk : d.kind = .record fs doc)
    (hm : ∀ e, Leads n.find d e → FieldsMovable n.find e) :
    ∃ j s text, recordSchema n d = some j ∧ parseSchema j = .ok s ∧ canonicalText s = some text ∧
      recordFingerprint ⟨n.env, .ref d.name⟩ = some (Crc.avroCRC64Fingerprint (utf8 text)) ∧
      (Crc.avroCRC64Fingerprint (utf8 text)).length = 8 := by
  obtain ⟨j, s, h1, h2, h3, -, -⟩ := document_copy h hr hq hk hm
  obtain ⟨-, -, h4⟩ := schema_same_data h hq h2 h3
  obtain ⟨text, h5⟩ := canonical_form_exists j s h2
  exact ⟨j, s, text, h1, h2, h5, by rw [h4, recordFingerprint, h5]; rfl, fingerprint_length _⟩

section
variable {S : Type} {src : Soe.Src S} {view : S → List Byte} {σ : Setting S}

/-- C94: a message of one program, taken apart by another: `ReadHeader` returns the fingerprint of the canonical
form of the schema that the sender's type carries, and what follows is read, with this schema, as schema
resolution between the two definitions gives it. -/
theorem message_exchange_partial {short₁ short₂ : Bool} {js₁ js₂ : List Json} {n₁ n₂ : NS}
    (h₁ : parseCommand short₁ js₁ = .ok n₁) (h₂ : parseCommand short₂ js₂ = .ok n₂)
    (hr₁ : Regular n₁.env) (hr₂ : Regular n₂.env) {q₁ q₂ : QName} {d₁ d₂ : PDef}
    (hq₁ : n₁.find q₁ = some d₁) (hq₂ : n₂.find q₂ = some d₂) {fs₁ doc₁ fs₂ doc₂}
    (hk₁ : d₁.kind = .record fs₁ doc₁) (hk₂ : d₂.kind = .record fs₂ doc₂)
    (hm₁ : ∀ e, Leads n₁.find d₁ e → FieldsMovable n₁.find e) (hm₂ : ∀ e, Leads n₂.find d₂ e → FieldsMovable n₂.find e)
    (hnull : NullsAgree n₁.env n₂.env (.ref d₁.name) (.ref d₂.name)) (hone : OneReader n₁.env n₂.env)
    (hx : ¬ Refused false n₁.env n₂.env (.ref d₁.name) (some (.ref d₂.name)))
    -- one reader for `ReadHeader` and for `Deserialize`
    (hs : src.Delivers view) (hf : src.Full view) (hd : σ.ro.Delivers view) (hl : σ.lim < 2 ^ 63)
    {fp : List Byte} (hfp : recordFingerprint ⟨n₁.env, .ref d₁.name⟩ = some fp)
    (bw : Bool) (mo : MapOrder) {v : Val} (hv : HasTy n₁.env σ.lim v (.ref d₁.name)) :
    (Soe.writeRecord ⟨fp, serialize n₁.env bw mo v (.ref d₁.name)⟩).2 = true ∧
    ∃ j₁ s₁ j₂ s₂ text dat, recordSchema n₁ d₁ = some j₁ ∧ parseSchema j₁ = .ok s₁ ∧
      recordSchema n₂ d₂ = some j₂ ∧ parseSchema j₂ = .ok s₂ ∧
      canonicalText s₁ = some text ∧ fp = Crc.avroCRC64Fingerprint (utf8 text) ∧
      Repr n₁.env v (.ref d₁.name) dat ∧
      ∀ (rd : S) (rest : List Byte),
        view rd = (Soe.writeRecord ⟨fp, serialize n₁.env bw mo v (.ref d₁.name)⟩).1.bytes ++ rest →
        ∃ left, Soe.readHeader src rd = .ok (fp, left) ∧
          match resolve Datum.skippable (fun f => σ.dv (f.norm n₂.env)) n₁.env n₂.env dat (.ref d₁.name) (.ref d₂.name) with
          | some u => ∃ rd', Deserializes σ s₁ s₂ left (.value (rootVal u) rd') ∧ view rd' = rest
          | none => Deserializes σ s₁ s₂ left .failed := by
  obtain ⟨j, s, text, a1, a2, a3, a4, a5⟩ := document_fingerprint h₁ hr₁ hq₁ hk₁ hm₁
  rw [hfp] at a4
  cases a4
  obtain ⟨j₁, s₁, j₂, s₂, g1, g2, g3, g4, -, g5⟩ := document_evolution_partial (σ := σ) h₁ h₂ hr₁ hr₂ hq₁ hq₂ hk₁ hk₂ hm₁ hm₂
    hnull hone hd hl
  rw [a1] at g1; cases g1
  rw [a2] at g2; cases g2
  obtain ⟨dat, e1, e2, e3⟩ := document_written (σ := σ) hl bw mo hv
  refine ⟨?_, j, s, j₂, s₂, text, dat, a1, a2, g3, g4, a3, rfl, e1, fun rd rest hin => ?_⟩
  · rw [(soe_layout _).2]
    obtain ⟨-, -, -, -, -, h6, -⟩ := ser_enc n₁.env bw mo hl v (.ref d₁.name) [] hv
    exact h6
  · obtain ⟨left, b1, b2⟩ := soe_roundtrip hs hf _ a5 hin
    exact ⟨left, b1, g5 hx dat _ rest left e2 e3 b2⟩

/-- C94 for a sender and a receiver of the same program. -/
theorem message_roundtrip_partial {short : Bool} {js : List Json} {n : NS}
    (h : parseCommand short js = .ok n) (hr : Regular n.env) {q : QName} {d : PDef}
    (hq : n.find q = some d) {fs doc} (hk : d.kind = .record fs doc)
    (hm : ∀ e, Leads n.find d e → FieldsMovable n.find e)
    (hs : src.Delivers view) (hf : src.Full view) (hd : σ.ro.Delivers view) (hl : σ.lim < 2 ^ 63)
    {fp : List Byte} (hfp : recordFingerprint ⟨n.env, .ref d.name⟩ = some fp)
    (bw : Bool) (mo : MapOrder) {v : Val} (hv : HasTy n.env σ.lim v (.ref d.name)) {rd : S} {rest : List Byte}
    (hin : view rd = (Soe.writeRecord ⟨fp, serialize n.env bw mo v (.ref d.name)⟩).1.bytes ++ rest) :
    ∃ j s left rd', recordSchema n d = some j ∧ parseSchema j = .ok s ∧
      Soe.readHeader src rd = .ok (fp, left) ∧ Deserializes σ s s left (.value v rd') ∧ view rd' = rest := by
  obtain ⟨j, s, text, a1, a2, a3, a4, a5⟩ := document_fingerprint h hr hq hk hm
  rw [hfp] at a4
  cases a4
  obtain ⟨left, b1, b2⟩ := soe_roundtrip hs hf _ a5 hin
  obtain ⟨j', s', c1, c2, -, c3⟩ := document_roundtrip_partial (σ := σ) h hr hq hk hm hd hl bw mo hv
  rw [a1] at c1; cases c1
  rw [a2] at c2; cases c2
  obtain ⟨rd', c4, c5⟩ := c3 left rest b2
  exact ⟨j, s, left, rd', a1, a2, b1, c4, c5⟩
end

/-! ### C95 -/

section
variable {e e' : Env} {R : Ty → Ty → Prop}

theorem goViewItems_cons {e : Env} {v : Val} (hn : v ≠ .nil) (vs : List Val) (t : Ty) :
    goViewItems e (v :: vs) t = match goView e v t, goViewItems e vs t with
      | some g, some gs => some (g :: gs)
      | _, _ => none := by
  cases v <;> first | exact absurd rfl hn | rfl

theorem goViewEntries_cons {e : Env} {v : Val} (hn : v ≠ .nil) (k : List Byte) (es : List (List Byte × Val)) (t : Ty) :
    goViewEntries e ((k, v) :: es) t = match goView e v t, goViewEntries e es t with
      | some g, some gs => some ((k, g) :: gs)
      | _, _ => none := by
  cases v <;> first | exact absurd rfl hn | rfl

mutual
/-- The generic form of a value under schemas that mean the same. -/
theorem goView_twin (h : Bisim e e' R) {lim : Nat} : ∀ (v : Val) (t t' : Ty), R t t' → HasTy e lim v t → goView e v t = goView e' v t'
  | .null, t, t', ht, hv => rfl
  | .bool _, t, t', ht, hv => rfl
  | .int _, t, t', ht, hv => rfl
  | .long _, t, t', ht, hv => rfl
  | .float _, t, t', ht, hv => rfl
  | .double _, t, t', ht, hv => rfl
  | .bytes _, t, t', ht, hv => rfl
  | .string _, t, t', ht, hv => rfl
  | .fixed x, t, t', ht, hv => rfl
  | .nil, t, t', ht, hv => rfl
  | .enum i, t, t', ht, hv => by
    obtain ⟨q, d, ss, dflt, rfl, h1, h2, h3⟩ := hv
    cases h _ _ ht with
    | prim hp => simp [primitives] at hp
    | @ref _ q' d1 d' e1 e2 _ _ e5 =>
      rw [h1] at e1; cases e1
      rw [h2] at e5
      have h6 : d'.kind = .enum ss dflt := by
        revert e5; generalize d'.kind = k; intro e5; cases e5; rfl
      obtain ⟨a, b, c⟩ := d
      obtain ⟨a', b', c'⟩ := d'
      cases h2
      cases h6
      simp only [goView, h1, e2]
  | .array vs, t, t', ht, hv => by
    obtain ⟨item, rfl, h1, h2⟩ := hv
    cases h _ _ ht with
    | prim hp => simp [primitives] at hp
    | array h3 => simp only [goView, goViewItems_twin h vs _ _ h3 h2]
  | .map es, t, t', ht, hv => by
    obtain ⟨item, rfl, h1, h2, h4⟩ := hv
    cases h _ _ ht with
    | prim hp => simp [primitives] at hp
    | map h3 => simp only [goView, goViewEntries_twin h es _ _ h3 h4]
  | .union _ none, t, t', ht, hv => hv.elim
  | .union tag (some v), t, t', ht, hv => by
    obtain ⟨ts, u, rfl, h1, h2, h3, h4⟩ := hv
    cases h _ _ ht with
    | prim hp => simp [primitives] at hp
    | @union _ ts' h5 =>
      rcases each_get h5 tag.toNat with ⟨a, _⟩ | ⟨a, b, e1, e2, e3⟩
      · rw [h1] at a; cases a
      · rw [h1] at e1; cases e1
        simp only [goView, h1, e2]
        exact goView_twin h v _ _ e3 h4
  | .record vs, t, t', ht, hv => by
    obtain ⟨q, d, fs, rfl, h1, h2, h3⟩ := hv
    cases h _ _ ht with
    | prim hp => simp [primitives] at hp
    | @ref _ q' d1 d' e1 e2 _ _ e5 =>
      rw [h1] at e1; cases e1
      rw [h2] at e5
      obtain ⟨fs', h4, h5⟩ : ∃ fs', d'.kind = .record fs' ∧ Each (FieldTwin R) fs fs' := by
        revert e5; generalize d'.kind = k; intro e5
        cases e5 with
        | record h => exact ⟨_, rfl, h⟩
      obtain ⟨a, b, c⟩ := d
      obtain ⟨a', b', c'⟩ := d'
      cases h2
      cases h4
      simp only [goView, h1, e2, goViewFields_twin h vs _ _ h5 h3]
theorem goViewItems_twin (h : Bisim e e' R) {lim : Nat} : ∀ (vs : List Val) (t t' : Ty), R t t' → AllHaveTy e lim vs t →
    goViewItems e vs t = goViewItems e' vs t'
  | [], _, _, _, _ => rfl
  | v :: vs, t, t', ht, hv => by
    by_cases hn : v = .nil
    · subst hn; rfl
    · rw [goViewItems_cons hn, goViewItems_cons hn, goView_twin h v t t' ht hv.1, goViewItems_twin h vs t t' ht hv.2]
theorem goViewEntries_twin (h : Bisim e e' R) {lim : Nat} : ∀ (vs : List (List Byte × Val)) (t t' : Ty), R t t' →
    EntriesHaveTy e lim vs t → goViewEntries e vs t = goViewEntries e' vs t'
  | [], _, _, _, _ => rfl
  | (k, v) :: vs, t, t', ht, hv => by
    by_cases hn : v = .nil
    · subst hn; rfl
    · rw [goViewEntries_cons hn, goViewEntries_cons hn, goView_twin h v t t' ht hv.2.1, goViewEntries_twin h vs t t' ht hv.2.2]
theorem goViewFields_twin (h : Bisim e e' R) {lim : Nat} : ∀ (vs : List Val) (fs fs' : List Field), Each (FieldTwin R) fs fs' →
    FieldsHaveTy e lim vs fs → goViewFields e vs fs = goViewFields e' vs fs'
  | [], fs, fs', hf, hv => by
    cases hf with
    | nil => rfl
    | cons _ _ => cases (hv : _ = _)
  | v :: vs, fs, fs', hf, hv => by
    cases hf with
    | nil => obtain ⟨f, fs, h0, _⟩ := hv; cases h0
    | cons h1 h2 =>
      obtain ⟨f, fs, h0, h3, h4⟩ := hv
      cases h0
      simp only [goViewFields, goView_twin h v _ _ h1.ty h3, goViewFields_twin h vs _ _ h2 h4, h1.name]
end
end

mutual
theorem norm_short (e : Env) : ∀ t : Ty, (t.norm e).short = t.short
  | .array t => norm_short e t
  | .map t => norm_short e t
  | .union ts => by simp only [Ty.norm, Ty.short, norms_short e ts, norms_length e ts]
  | .ref q => by
    simp only [Ty.norm]
    split <;> rfl
  | .null | .bool | .int | .long | .float | .double | .bytes | .string => rfl
theorem norms_short (e : Env) : ∀ ts : List Ty, Ty.allShort (Ty.norms e ts) = Ty.allShort ts
  | [] => rfl
  | t :: ts => by simp only [Ty.norms, Ty.allShort, norm_short e t, norms_short e ts]
theorem norms_length (e : Env) : ∀ ts : List Ty, (Ty.norms e ts).length = ts.length
  | [] => rfl
  | t :: ts => by simp only [Ty.norms, List.length_cons, norms_length e ts]
end

/-- A schema made of copies of definitions has enums and unions of the same sizes. -/
theorem copied_counted {env : Env} {t : Ty} {s : Schema} (h : Copied env t s) (hc : Counted ⟨env, t⟩) : Counted s where
  enums q d' ss dd hq hk := by
    obtain ⟨d, h1, rfl⟩ := h.defs _ _ hq
    refine hc.enums q d ss dd h1 ?_
    unfold Def.norm at hk
    dsimp only at hk
    cases hd : d.kind with
    | record fs => rw [hd] at hk; cases hk
    | enum a b => rw [hd] at hk; exact hk
    | fixed a => rw [hd] at hk; cases hk
  fields q d' fs f hq hk hf := by
    obtain ⟨d, h1, rfl⟩ := h.defs _ _ hq
    obtain ⟨fs0, h2, rfl⟩ := norm_kind hk
    obtain ⟨f0, h3, rfl⟩ := List.mem_map.1 hf
    have := hc.fields q d fs0 f0 h1 h2 h3
    simp only [Field.norm, norm_short, this]
  root := by rw [h.root, norm_short]; exact hc.root

section
variable {R : Type} {σ : Setting R} {view : R → List Byte}

/-- C95: what a generated record's `Serialize` has written is read by the generic codec, made from the schema
the type carries, and the value it returns shows the value written. -/
theorem document_generic_partial {short : Bool} {js : List Json} {n : NS}
    (h : parseCommand short js = .ok n) (hr : Regular n.env) {q : QName} {d : PDef}
    (hq : n.find q = some d) {fs doc} (hk : d.kind = .record fs doc)
    (hm : ∀ e, Leads n.find d e → FieldsMovable n.find e) (hcnt : Counted ⟨n.env, .ref d.name⟩)
    (hd : σ.ro.Delivers view) (hl : σ.lim < 2 ^ 63) (bw : Bool) (mo : MapOrder) {v : Val}
    (hv : HasTy n.env σ.lim v (.ref d.name)) (hi : v.nullInside = false) :
    ∃ j s g, recordSchema n d = some j ∧ parseSchema j = .ok s ∧ goView n.env v (.ref d.name) = some g ∧
      ∀ (rd : R) (rest : List Byte), view rd = wire ⟨n.env, .ref d.name⟩ bw mo v ++ rest →
        ∃ rd', GDeserializes σ s s rd (.value g rd') ∧ view rd' = rest := by
  obtain ⟨j, s, h1, h2, h3, h4, h5⟩ := document_copy h hr hq hk hm
  obtain ⟨ds, c1, -, -⟩ := command_holds h
  have hown : n.find d.name = some d := (c1.find _ _).2 ⟨((c1.find _ _).1 hq).1, .inl rfl⟩
  have hb := h3.bisim (command_resolved h hown)
  have hroot : AlikeTy n.env s.env (.ref d.name) s.root ∧
      ∀ q, TyMentions (.ref d.name) q → Reachable ⟨n.env, .ref d.name⟩ q := ⟨h3.root, fun q hq => .root hq⟩
  have hv' := hasTy_twin hb _ _ _ hroot hv
  have hser : serialize n.env bw mo v (.ref d.name) = serialize s.env bw mo v s.root := ser_twin hb bw mo _ _ _ _ hroot
  have hview := goView_twin hb _ _ _ hroot hv
  have hne : v ≠ .nil := by
    rintro rfl
    obtain ⟨ts, h5, -⟩ := hv
    cases h5
  have hg := h4.generic (copied_counted h5 hcnt)
  have hgo := goView_isSome v s.root hv'
  rw [hi] at hgo
  obtain ⟨g, hgg⟩ := Option.isSome_iff_exists.1 (by simpa using hgo)
  refine ⟨j, s, g, h1, h2, by rw [hview]; exact hgg, fun rd rest hin => ?_⟩
  unfold wire at hin
  dsimp only at hin
  rw [hser] at hin
  obtain ⟨g', rd', k1, k2, k3⟩ := generic_reads_generated_partial hg hd hl bw mo hv' hne hi (rd := rd) (rest := rest) hin
  rw [hgg] at k1; cases k1
  exact ⟨rd', k2, k3⟩
end

/-! ### Concrete documents -/

/-- The hypotheses of `message_roundtrip_partial`, and what it gives: a record of `x.R` of `familyDoc`. -/
example : ∃ n d j s fp left, parseCommand false [familyDoc] = .ok n ∧ n.find qFam = some d ∧ recordSchema n d = some j ∧
    parseSchema j = .ok s ∧ recordFingerprint ⟨n.env, .ref qFam⟩ = some fp ∧
    Soe.readHeader Soe.whole ((Soe.writeRecord ⟨fp, serialize n.env true .rev famVal (.ref qFam)⟩).1.bytes ++ [9]) = .ok (fp, left) ∧
    Deserializes ⟨flatOps true, 1000, fun _ => .null, Orders.id⟩ s s left (.value famVal [9]) := by
  obtain ⟨n, h1, h2⟩ := readAs_ok (js := [familyDoc])
    (p := fun n => documentB qFam n && hasTyB n.env 1000 famVal (.ref qFam)) (by decide +kernel)
  simp only [Bool.and_eq_true] at h2
  obtain ⟨h2, h2'⟩ := h2
  obtain ⟨h5, d, fs, doc, h6, h7, h8, h9⟩ := document_of h1 h2
  obtain ⟨j, s, text, a1, a2, a3, a4, a5⟩ := document_fingerprint h1 h5 h6 h8 h9
  obtain ⟨j', s', left, rd', b1, b2, b3, b4, b5⟩ := message_roundtrip_partial (σ := ⟨flatOps true, 1000, fun _ => .null, Orders.id⟩)
    h1 h5 h6 h8 h9 Soe.whole_delivers Soe.whole_full (flatOps_delivers true) (by decide) a4 true .rev (v := famVal)
    (by rw [h7]; exact hasTy_of _ _ h2') (rest := [9]) rfl
  subst b5
  rw [h7] at a4 b3
  exact ⟨n, d, j', s', _, left, h1, h6, b1, b2, a4, b3, b4⟩

/-- The hypotheses of `message_exchange_partial`, and what it gives: the record, received by a program generated
from `familyLater`. -/
example : ∃ n₁ n₂ d₁ d₂ j₁ j₂ s₁ s₂ fp left, parseCommand false [familyDoc] = .ok n₁ ∧ parseCommand false [familyLater] = .ok n₂ ∧
    n₁.find qFam = some d₁ ∧ n₂.find qFam = some d₂ ∧ recordSchema n₁ d₁ = some j₁ ∧ parseSchema j₁ = .ok s₁ ∧
    recordSchema n₂ d₂ = some j₂ ∧ parseSchema j₂ = .ok s₂ ∧ recordFingerprint s₁ = some fp ∧
    Soe.readHeader Soe.whole (Soe.writeRecord ⟨fp, serialize n₁.env true .rev famVal (.ref qFam)⟩).1.bytes = .ok (fp, left) ∧
    Deserializes ⟨flatOps true, 1000, fun _ => .int 7, Orders.id⟩ s₁ s₂ left (.value famLaterVal []) := by
  obtain ⟨n₁, n₂, h1, h2, h3⟩ := readAs_both (js₁ := [familyDoc]) (js₂ := [familyLater]) (p := fun n₁ n₂ =>
    documentB qFam n₁ && documentB qFam n₂ && suitedB ⟨n₁.env, .ref qFam⟩ ⟨n₂.env, .ref qFam⟩ &&
    (compileFuel 100 Orders.id false ⟨n₁.env, .ref qFam⟩ ⟨n₂.env, .ref qFam⟩).isOk &&
    hasTyB n₁.env 1000 famVal (.ref qFam) &&
    ((datumOf n₁.env famVal (.ref qFam)).any fun dat => resolvesTo
      (resolve Datum.skippable (fun _ => .int 7) n₁.env n₂.env dat (.ref qFam) (.ref qFam)) famLaterVal))
    (by decide +kernel)
  simp only [Bool.and_eq_true] at h3
  obtain ⟨⟨⟨⟨⟨a1, a2⟩, a3⟩, a4⟩, a5⟩, a7⟩ := h3
  obtain ⟨b1, d₁, fs₁, doc₁, b2, b3, b4, b5⟩ := document_of h1 a1
  obtain ⟨c1, d₂, fs₂, doc₂, c2, c3, c4, c5⟩ := document_of h2 a2
  have hs := suited_of a3
  have hno : ¬ Refused false n₁.env n₂.env (.ref d₁.name) (some (.ref d₂.name)) := by
    rw [b3, c3]
    intro hx
    obtain ⟨prog, hp⟩ := compiles_of a4
    obtain ⟨e, he⟩ := (refused_iff hs Orders.id).2 hx
    rw [hp] at he; cases he
  obtain ⟨j, s, text, e1, e2, e3, e4, e5⟩ := document_fingerprint h1 b1 b2 b4 b5
  obtain ⟨-, j₁, s₁, j₂, s₂, text', dat, g1, g2, g3, g4, g5, g6, g7, g8⟩ := message_exchange_partial
    (σ := ⟨flatOps true, 1000, fun _ => .int 7, Orders.id⟩) h1 h2 b1 c1 b2 c2 b4 c4 b5 c5
    (by rw [b3, c3]; exact hs.nulls) hs.one hno Soe.whole_delivers Soe.whole_full (flatOps_delivers true) (by decide) e4 true .rev
    (v := famVal) (by rw [b3]; exact hasTy_of _ _ a5)
  rw [b3] at g7 g8
  rw [c3] at g8
  have hres : resolve Datum.skippable (fun _ => .int 7) n₁.env n₂.env dat (.ref qFam) (.ref qFam) = some famLaterVal := by
    cases hd : datumOf n₁.env famVal (.ref qFam) with
    | none => rw [hd] at a7; cases a7
    | some dat' =>
      rw [hd] at a7
      rw [repr_datum _ _ _ _ g7 hd]
      exact resolvesTo_eq a7
  obtain ⟨left, k1, k2⟩ := g8 _ [] (List.append_nil _).symm
  dsimp only at k2
  rw [hres] at k2
  obtain ⟨rd', k3, k4⟩ := k2
  subst k4
  exact ⟨n₁, n₂, d₁, d₂, j₁, j₂, s₁, s₂, _, left, h1, h2, b2, c2, g1, g2, g3, g4, by rw [recordFingerprint, g5, g6]; rfl, k1, k3⟩

/-- The hypotheses of `document_generic_partial`, and what it gives. -/
example : ∃ n d j s g rd', parseCommand false [familyDoc] = .ok n ∧ n.find qFam = some d ∧ recordSchema n d = some j ∧
    parseSchema j = .ok s ∧ goView n.env famVal (.ref qFam) = some g ∧
    GDeserializes (demo false) s s [wire ⟨n.env, .ref qFam⟩ true .rev famVal ++ [1], [2, 3]] (.value g rd') ∧
    rd'.flatten = [1, 2, 3] := by
  obtain ⟨n, h1, h2⟩ := readAs_ok (js := [familyDoc])
    (p := fun n => documentB qFam n && hasTyB n.env 1000 famVal (.ref qFam) && countedB ⟨n.env, .ref qFam⟩) (by decide +kernel)
  simp only [Bool.and_eq_true] at h2
  obtain ⟨⟨h2, h2'⟩, h3⟩ := h2
  obtain ⟨h5, d, fs, doc, h6, h7, h8, h9⟩ := document_of h1 h2
  obtain ⟨j, s, g, a1, a2, a3, a4⟩ := document_generic_partial (σ := demo false) h1 h5 h6 h8 h9 (by rw [h7]; exact counted_of h3)
    (demo_delivers false) (by decide) true .rev (v := famVal) (by rw [h7]; exact hasTy_of _ _ h2') (by decide +kernel)
  rw [h7] at a3 a4
  obtain ⟨rd', b1, b2⟩ := a4 [wire ⟨n.env, .ref qFam⟩ true .rev famVal ++ [1], [2, 3]] [1, 2, 3] (by simp)
  exact ⟨n, d, j, s, g, rd', h1, h6, a1, a2, a3, b1, b2⟩

end Verif.Props
