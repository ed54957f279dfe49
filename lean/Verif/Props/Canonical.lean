import Verif.Canonical.PcfProof
import Verif.Canonical.VariantProof
import Verif.Props.Parser
/-
C52: the canonical form ignores irrelevant attributes.
C53: equal canonical forms mean interchangeable data.
C66: the canonical form is Avro's Parsing Canonical Form.
-/
namespace Verif.Props
open Verif Spec
set_option linter.unusedSimpArgs false
set_option linter.unusedVariables false

/-- Every parsed schema has a canonical form: building it ends and dereferences nothing nil. -/
theorem canonical_form_exists (j : Json) (s : Schema) (h : parseSchema j = .ok s) : ∃ text, canonicalText s = some text := by
  obtain ⟨c, v, h1⟩ := canonical_exists (parse_resolved j s h)
  unfold canonicalText canonicalForm
  rw [h1]
  exact ⟨_, rfl⟩

/-! ### C52 -/

/-- Alike schemas have the same canonical form, as text, and the same fingerprint. -/
theorem canonical_same (j j' : Json) (s s' : Schema) (h : parseSchema j = .ok s) (h' : parseSchema j' = .ok s')
    (ha : Alike s s') : canonicalText s = canonicalText s' ∧ recordFingerprint s = recordFingerprint s' := by
  have key : canonicalText s = canonicalText s' := by
    have hr := parse_resolved j s h
    have hr' := parse_resolved j' s' h'
    obtain ⟨c, v, h1⟩ := canonical_exists hr
    have h2 := (canonicalForm_iff hr).2 ⟨_, _, h1⟩
    rw [canon_alike (reachable_closed hr) (fun q hq d hd q' d' hd' hn => ha.defs q hq d hd q' d' hd' hn) _ _ _ _ ha.root
      fun q hq => .root hq] at h1
    have h3 := (canonicalForm_iff hr').2 ⟨_, _, h1⟩
    unfold canonicalText
    rw [h2, h3]
  refine ⟨key, ?_⟩
  unfold recordFingerprint
  rw [key]

/-- The schema mentions definitions by their names, not by their aliases. -/
def ByName (s : Schema) : Prop := ∀ q, Reachable s q → ∀ d, s.env.find q = some d → d.name = q

/-- Documents that differ only in documentation, aliases, defaults and other attributes have the same
canonical form and the same fingerprint. -/
theorem canonical_ignores (j j' : Json) (s s' : Schema) (h : parseSchema j = .ok s) (h' : parseSchema j' = .ok s')
    (hv : Variant j j') (hn : ByName s) (hn' : ByName s') :
    canonicalText s = canonicalText s' ∧ recordFingerprint s = recordFingerprint s' := by
  refine canonical_same j j' s s' h h' ?_
  obtain ⟨t, ds, a1, a2, a3, a4, a5⟩ := parse_means j s h
  obtain ⟨t', ds', b1, b2, b3, b4, b5⟩ := parse_means j' s' h'
  obtain ⟨c1, c2⟩ := variant_describes hv a1 b1
  have hr := parse_resolved j s h
  have hr' := parse_resolved j' s' h'
  -- a definition of `s'` with the name of one of `s` is of the same kind
  have hkind : ∀ q d q' d', s.env.find q = some d → s'.env.find q' = some d' → d'.name = d.name →
      ∃ p ∈ ds, ∃ p' ∈ ds', d = p.erase ∧ d' = p'.erase ∧ SameKindDef p.kind p'.kind := by
    intro q d q' d' hd hd' hnm
    obtain ⟨p, hp, hk, rfl⟩ := (a5 _ _).1 hd
    obtain ⟨p', hp', hk', rfl⟩ := (b5 _ _).1 hd'
    obtain ⟨p2, hp2, e1, e2⟩ := each_mem c2 p hp
    have : p2.name = p'.name := e1.symm.trans hnm.symm
    obtain rfl := b2.2 p2 hp2 p' hp' p'.name (.inl this.symm) (.inl rfl)
    exact ⟨p, hp, p2, hp2, rfl, rfl, e2⟩
  have hreach : ∀ q, Reachable s q → Reachable s' q := by
    intro q hq
    induction hq with
    | root hq => exact .root (by rw [b4, ← c1, ← a4]; exact hq)
    | @field q d fs f q2 hq hd hk hf hm ih =>
      obtain ⟨d', hd'⟩ := hr' q ih
      obtain ⟨p, hp, p', hp', rfl, rfl, e⟩ := hkind q d q d' hd hd' ((hn' q ih d' hd').trans (hn q hq d hd).symm)
      cases e' : p.kind with
      | enum => simp [PDef.erase, e'] at hk
      | fixed => simp [PDef.erase, e'] at hk
      | record gs doc =>
        simp only [PDef.erase, e', DefKind.record.injEq] at hk
        subst hk
        rw [e'] at e
        generalize hk2 : p'.kind = k2 at e
        cases e with
        | @record _ gs' _ doc' e =>
          obtain ⟨g, hg, rfl⟩ := List.mem_map.1 hf
          obtain ⟨g', hg', e3⟩ := sameFields_mem e g hg
          refine .field ih hd' (fs := gs'.map PField.erase) (f := g'.erase) (by simp [PDef.erase, hk2])
            (List.mem_map.2 ⟨g', hg', rfl⟩) ?_
          show TyMentions g'.ty.erase q2
          rw [e3]; exact hm
  have hboth : ∀ q, Reachable s q → ∃ d d', s.env.find q = some d ∧ s'.env.find q = some d' ∧ d.name = d'.name := by
    intro q hq
    obtain ⟨d, hd⟩ := hr q hq
    obtain ⟨d', hd'⟩ := hr' q (hreach q hq)
    exact ⟨d, d', hd, hd', (hn q hq d hd).trans (hn' q (hreach q hq) d' hd').symm⟩
  constructor
  · rw [b4, ← c1, ← a4]
    exact alikeTy_self _ fun q hq => hboth q (.root hq)
  · intro q hq d hd q' d' hd' hnm
    obtain ⟨p, hp, p', hp', rfl, rfl, e⟩ := hkind q d q' d' hd hd' hnm
    cases e' : p.kind with
    | enum =>
      rw [e'] at e
      generalize hk2 : p'.kind = k2 at e
      cases e
      simp only [PDef.erase, e', hk2]
      exact .enum
    | fixed =>
      rw [e'] at e
      generalize hk2 : p'.kind = k2 at e
      cases e
      simp only [PDef.erase, e', hk2]
      exact .fixed
    | record gs doc =>
      rw [e'] at e
      generalize hk2 : p'.kind = k2 at e
      cases e with
      | @record _ gs' _ doc' e =>
        simp only [PDef.erase, e', hk2]
        refine .record (alikeFields_same gs gs' e fun f hf q2 hq2 => hboth q2 ?_)
        exact .field hq hd (fs := gs.map PField.erase) (f := f.erase) (by simp [PDef.erase, e'])
          (List.mem_map.2 ⟨f, hf, rfl⟩) hq2

/-- The same document with other documentation, aliases, defaults, order of attributes, and `"int"` written out. -/
def docPlain : Json := jobj [("fields", .arr [
    jobj [("name", jstr "x"), ("type", jstr "int")],
    jobj [("name", jstr "next"), ("type", .arr [jstr "null", jstr "L"])]]),
  ("name", jstr "L"), ("namespace", jstr "a.b"), ("type", jstr "record")]
def docRich : Json := jobj [("aliases", .arr [jstr "M"]), ("doc", jstr "a list"), ("fields", .arr [
    jobj [("default", .num 3), ("name", jstr "x"), ("type", jobj [("logicalType", jstr "date"), ("type", jstr "int")])],
    jobj [("aliases", .arr [jstr "n"]), ("doc", jstr "tail"), ("name", jstr "next"), ("type", .arr [jstr "null", jstr "L"])]]),
  ("name", jstr "L"), ("namespace", jstr "a.b"), ("type", jstr "record")]

def listSchema : Schema :=
  ⟨[(⟨"a.b".toList, "L".toList⟩, ⟨⟨"a.b".toList, "L".toList⟩, [], .record [⟨"x".toList, [], .int, none⟩,
    ⟨"next".toList, [], .union [.null, .ref ⟨"a.b".toList, "L".toList⟩], none⟩]⟩)], .ref ⟨"a.b".toList, "L".toList⟩⟩

example : parseSchema docPlain = .ok listSchema := rfl

/-- The documents are variants and both are accepted. -/
example : Variant docPlain docRich ∧ ∃ s, parseSchema docRich = .ok s :=
  ⟨.record rfl rfl rfl rfl rfl rfl (.cons rfl rfl rfl (.primRight (s := "int".toList) (p := .int) (by simp [primNames]) rfl)
    (.cons rfl rfl rfl (.union (.cons .name (.cons .name .nil))) .nil)), ⟨_, rfl⟩⟩

example : ByName listSchema := by
  intro q _ d hd
  simp only [listSchema, Env.find] at hd
  split at hd
  · rename_i h; cases hd; exact h
  · cases hd

example : canonicalText listSchema =
    some ("{\"name\":\"a.b.L\",\"type\":\"record\",\"fields\":[{\"name\":\"x\",\"type\":\"int\"}," ++
      "{\"name\":\"next\",\"type\":[\"null\",\"a.b.L\"]}]}").toList := by decide +kernel

/-! ### C53 -/

/-- No definition has the name of a primitive type (without a namespace). -/
def NotPrimNames (s : Schema) : Prop := ∀ q d, s.env.find q = some d → ∀ p ∈ primNames, d.name ≠ ⟨[], p.1⟩

theorem parsed_names_plain (j : Json) (s : Schema) (h : parseSchema j = .ok s) (q : QName) (d : Def)
    (hd : s.env.find q = some d) : '.' ∉ d.name.name := by
  obtain ⟨t, ds, h1, -, -, -, h5⟩ := parse_means j s h
  obtain ⟨p, hp, -, rfl⟩ := (h5 _ _).1 hd
  exact describes_plain h1 p hp

/-- No definition whose last part has no dot prints as a primitive name unless it is one. -/
theorem namesPlain_of {j : Json} {s : Schema} (h : parseSchema j = .ok s) (hp : NotPrimNames s) : NamesPlain s.env := by
  refine ⟨parsed_names_plain j s h, fun q d hd hc => ?_⟩
  have hpl := parsed_names_plain j s h q d hd
  have key : ∀ x ∈ primitiveNames, '.' ∉ x ∧ ∃ p ∈ primNames, p.1 = x := by decide
  obtain ⟨h1, p, h2, h3⟩ := key _ hc
  refine hp q d hd p h2 ?_
  refine qname_str_inj hpl (h3 ▸ h1) ?_
  rw [show QName.str ⟨[], p.1⟩ = p.1 from rfl, h3]

/-- Schemas with the same canonical form are alike: same full names, same fields in the same order, same
symbols, same sizes. -/
theorem canonical_decides_partial (j j' : Json) (s s' : Schema) (h : parseSchema j = .ok s) (h' : parseSchema j' = .ok s')
    (hp : NotPrimNames s) (hp' : NotPrimNames s') (hc : canonicalText s = canonicalText s') : Alike s s' := by
  have hr := parse_resolved j s h
  have hr' := parse_resolved j' s' h'
  obtain ⟨c, v, h1⟩ := canonical_exists hr
  obtain ⟨c', v', h1'⟩ := canonical_exists hr'
  have h2 := (canonicalForm_iff hr).2 ⟨_, _, h1⟩
  have h2' := (canonicalForm_iff hr').2 ⟨_, _, h1'⟩
  unfold canonicalText at hc
  rw [h2, h2'] at hc
  simp only [Option.map_some, Option.some.injEq] at hc
  obtain rfl := canon_print_inj hc
  exact alike_of_canon (namesPlain_of h hp) (namesPlain_of h' hp') (parse_names j s h) (parse_names j' s' h') h1 h1'

/-- Under schemas with the same canonical form every datum has the same encodings, provided that no
definition is called like a primitive type. -/
theorem canonical_equal_data_partial (j j' : Json) (s s' : Schema) (h : parseSchema j = .ok s) (h' : parseSchema j' = .ok s')
    (hp : NotPrimNames s) (hp' : NotPrimNames s') (hc : canonicalText s = canonicalText s') (d : Datum) (bs : List Byte) :
    Enc s.env d s.root bs ↔ Enc s'.env d s'.root bs := by
  have ha := canonical_decides_partial j j' s s' h h' hp hp' hc
  exact enc_alike (reachable_closed (parse_resolved j s h))
    (fun q hq d hd q' d' hd' hn => ha.defs q hq d hd q' d' hd' hn) d ha.root fun q hq => .root hq

/-- A record whose second field is a fixed called `int`, or a number. -/
def intFixed : Json := jobj [("name", jstr "int"), ("size", .num 1), ("type", jstr "fixed")]
def twoFields (j : Json) : Json := jobj [("fields", .arr [
    jobj [("name", jstr "a"), ("type", intFixed)], jobj [("name", jstr "b"), ("type", j)]]),
  ("name", jstr "R"), ("type", jstr "record")]
def twoFieldsSchema (t : Ty) : Schema :=
  ⟨[(⟨[], "int".toList⟩, ⟨⟨[], "int".toList⟩, [], .fixed 1⟩),
    (⟨[], "R".toList⟩, ⟨⟨[], "R".toList⟩, [], .record [⟨"a".toList, [], .ref ⟨[], "int".toList⟩, none⟩,
      ⟨"b".toList, [], t, none⟩]⟩)], .ref ⟨[], "R".toList⟩⟩

/-- A definition called `int`: the parser accepts it, and then two schemas with the same canonical form
differ. In one the field `b` is a fixed of one byte, in the other a number. -/
theorem primitive_name_clash :
    parseSchema (twoFields intFixed) = .ok (twoFieldsSchema (.ref ⟨[], "int".toList⟩)) ∧
    parseSchema (twoFields (jstr "int")) = .ok (twoFieldsSchema .int) ∧
    canonicalText (twoFieldsSchema (.ref ⟨[], "int".toList⟩)) = canonicalText (twoFieldsSchema .int) ∧
    Enc (twoFieldsSchema (.ref ⟨[], "int".toList⟩)).env (.record [.fixed [1], .fixed [2]]) (.ref ⟨[], "R".toList⟩) [1, 2] ∧
    ¬ Enc (twoFieldsSchema .int).env (.record [.fixed [1], .fixed [2]]) (.ref ⟨[], "R".toList⟩) [1, 2] := by
  refine ⟨rfl, rfl, by decide +kernel, ?_, ?_⟩
  · refine ⟨_, _, _, rfl, rfl, rfl, ?_⟩
    refine ⟨_, _, [1], [2], rfl, ⟨_, _, rfl, rfl, rfl, rfl⟩, ?_, rfl⟩
    exact ⟨_, _, [2], [], rfl, ⟨_, _, rfl, rfl, rfl, rfl⟩, ⟨rfl, rfl⟩, rfl⟩
  · rintro ⟨q, d, fs, h1, h2, h3, h4⟩
    cases h1
    cases h2
    cases h3
    obtain ⟨f, fs', e, bs, h5, -, h6, -⟩ := h4
    cases h5
    obtain ⟨f, fs', e, bs, h5, h7, -, -⟩ := h6
    cases h5
    obtain ⟨q, d, h8, -⟩ := h7
    cases h8

/-- The hypotheses are met by two different documents. -/
example : NotPrimNames listSchema := by
  intro q d hd p hp
  have : d.name = ⟨"a.b".toList, "L".toList⟩ := by
    simp only [listSchema, Env.find] at hd
    split at hd
    · cases hd; rfl
    · cases hd
  rw [this]
  intro hc
  cases hc

/-! ### C66 -/

/-- The canonical form of a legal document is the Parsing Canonical Form that the Avro specification
describes, unless a record has no fields or an enum no symbols. -/
theorem canonical_is_pcf_partial (j : Json) (s : Schema) (h : parseSchema j = .ok s) (text : Str) (seen : List QName)
    (hpcf : Pcf [] [] j text seen)
    (hne : ∀ q d, s.env.find q = some d → d.kind ≠ .record [] ∧ ∀ dflt, d.kind ≠ .enum [] dflt) :
    canonicalText s = some text ∧ recordFingerprint s = some (Crc.avroCRC64Fingerprint (utf8 text)) := by
  have key : canonicalText s = some text := by
    obtain ⟨t, ds, h1, h2, h3, h4, h5⟩ := parse_means j s h
    have hne' : ∀ p ∈ ds, (∀ doc, p.kind ≠ .record [] doc) ∧ ∀ doc dflt, p.kind ≠ .enum [] doc dflt := by
      intro p hp
      obtain ⟨e1, e2⟩ := hne p.name p.erase ((h5 _ _).2 ⟨p, hp, .inl rfl, rfl⟩)
      refine ⟨fun doc hk => e1 ?_, fun doc dflt hk => e2 dflt ?_⟩ <;> simp [PDef.erase, hk]
    obtain ⟨⟨n, c, h6, h7⟩, -⟩ := pcf_canon h2 h5 hne' hpcf _ _ _ _ h1 (fun d hd => hd) (fun q hq => by cases hq)
    have h8 := (canonicalForm_iff (parse_resolved j s h)).2 ⟨n, _, by rw [h4]; exact h6⟩
    unfold canonicalText
    rw [h8, ← h7]
    rfl
  refine ⟨key, ?_⟩
  unfold recordFingerprint
  rw [key]
  rfl

theorem legal_iff (s : Str) : LegalText s ↔ s.all (fun c => c.isAlphanum || c == '_' || c == '.') = true := by
  simp [LegalText, List.all_eq_true, or_assoc]

/-- A document of every kind of type has a Parsing Canonical Form. -/
def pcfDoc : Json := jobj [("doc", jstr "x"), ("fields", .arr [
    jobj [("name", jstr "e"), ("type", jobj [("name", jstr "E"), ("symbols", .arr [jstr "X", jstr "Y"]), ("type", jstr "enum")])],
    jobj [("name", jstr "f"), ("type", jobj [("items", .arr [jobj [("name", jstr "c.F"), ("size", .num 12), ("type", jstr "fixed")],
      jstr "a.E"]), ("type", jstr "array")])],
    jobj [("name", jstr "g"), ("type", jobj [("type", jstr "map"), ("values", jstr "R")])]]),
  ("name", jstr "R"), ("namespace", jstr "a"), ("type", jstr "record")]

example : ∃ text, Pcf [] [] pcfDoc text [⟨"c".toList, "F".toList⟩, ⟨"a".toList, "E".toList⟩, ⟨"a".toList, "R".toList⟩] ∧
    text = ("{\"name\":\"a.R\",\"type\":\"record\",\"fields\":[" ++
      "{\"name\":\"e\",\"type\":{\"name\":\"a.E\",\"type\":\"enum\",\"symbols\":[\"X\",\"Y\"]}}," ++
      "{\"name\":\"f\",\"type\":{\"type\":\"array\",\"items\":[{\"name\":\"c.F\",\"type\":\"fixed\",\"size\":12},\"a.E\"]}}," ++
      "{\"name\":\"g\",\"type\":{\"type\":\"map\",\"values\":\"a.R\"}}]}").toList := by
  have hpl : ∀ n : Str, '.' ∉ n → FullName "a".toList n ⟨"a".toList, n⟩ := fun n hn => .plain n hn
  have hfull : FullName "a".toList "a.E".toList ⟨"a".toList, "E".toList⟩ := .dotted "a".toList "E".toList (by decide)
  have hfull' : FullName "a".toList "c.F".toList ⟨"c".toList, "F".toList⟩ := .dotted "c".toList "F".toList (by decide)
  have hE : Pcf "a".toList [⟨"a".toList, "R".toList⟩] (jobj [("name", jstr "E"), ("symbols", .arr [jstr "X", jstr "Y"]),
      ("type", jstr "enum")]) _ _ :=
    .enum (q := ⟨"a".toList, "E".toList⟩) (ss := ["X".toList, "Y".toList]) rfl
      ⟨⟨"E".toList, [], rfl, .inr ⟨rfl, rfl⟩, hpl _ (by decide)⟩, by decide +kernel, (legal_iff _).2 (by decide)⟩ (by decide) rfl
      (fun s hs => by
        simp only [List.mem_cons, List.not_mem_nil, or_false] at hs
        rcases hs with rfl | rfl <;> exact (legal_iff _).2 (by decide))
  have hF : Pcf "a".toList [⟨"a".toList, "E".toList⟩, ⟨"a".toList, "R".toList⟩] (jobj [("name", jstr "c.F"),
      ("size", .num 12), ("type", jstr "fixed")]) _ _ :=
    .fixed (q := ⟨"c".toList, "F".toList⟩) (size := 12) rfl
        ⟨⟨"c.F".toList, [], rfl, .inr ⟨rfl, rfl⟩, hfull'⟩, by decide +kernel, (legal_iff _).2 (by decide)⟩ (by decide) rfl
  refine ⟨_, Pcf.record (q := ⟨"a".toList, "R".toList⟩) rfl ⟨⟨"R".toList, "a".toList, rfl, .inl rfl, hpl _ (by decide)⟩,
    by decide +kernel, (legal_iff _).2 (by decide)⟩ (by decide) rfl
    (.cons (n := "e".toList) rfl ((legal_iff _).2 (by decide)) rfl hE
    (.cons (n := "f".toList) rfl ((legal_iff _).2 (by decide)) rfl
      (.array rfl rfl (.union (.cons hF (.cons (.named (q := ⟨"a".toList, "E".toList⟩) (fun p => by cases p <;> decide)
        hfull (by decide) ((legal_iff _).2 (by decide))) .nil))))
    (.cons (n := "g".toList) rfl ((legal_iff _).2 (by decide)) rfl
      (.map rfl rfl (.named (q := ⟨"a".toList, "R".toList⟩) (fun p => by cases p <;> decide) (hpl _ (by decide)) (by decide)
        ((legal_iff _).2 (by decide)))) .nil))), by decide +kernel⟩

/-- A record without fields. -/
def emptyRecord : Json := jobj [("fields", .arr []), ("name", jstr "R"), ("type", jstr "record")]

/-- An empty list of fields is left out of the canonical form, against the specification; so the
fingerprint differs from the one other implementations compute. -/
theorem empty_fields_dropped : ∃ s seen, parseSchema emptyRecord = .ok s ∧
    Pcf [] [] emptyRecord "{\"name\":\"R\",\"type\":\"record\",\"fields\":[]}".toList seen ∧
    canonicalText s = some "{\"name\":\"R\",\"type\":\"record\"}".toList := by
  refine ⟨⟨[(⟨[], "R".toList⟩, ⟨⟨[], "R".toList⟩, [], .record []⟩)], .ref ⟨[], "R".toList⟩⟩, [⟨[], "R".toList⟩], rfl, ?_,
    by decide +kernel⟩
  exact .record (q := ⟨[], "R".toList⟩) (js := []) (ts := []) rfl
    ⟨⟨"R".toList, [], rfl, .inr ⟨rfl, rfl⟩, .plain _ (by decide)⟩, by decide +kernel, (legal_iff _).2 (by decide)⟩ (by decide) rfl .nil

end Verif.Props
