import Verif.Props.Code
/-
Cases that meet the hypotheses of Props/Code: a program generated from a document, run on a value.
-/
namespace Verif.Props
open Verif Spec Spec.Go

section
variable (nm : Namer) (n : NS)

mutual
/-- `Shows`, as a check. -/
def showsB : Value → Val → PTy → Bool
  | .nil, .null, .prim .null _ => true
  | .bool b, .bool b', .prim .bool _ => b == b'
  | .int32 x, .int x', .prim .int _ => x == x'
  | .int x, .long x', .prim .long _ => x == x'
  | .str x, .string x', .prim .string _ => x == x'
  | .bytes x, .fixed x', .ref q => x == x' && match n.find q with
    | some d => match d.kind with | .fixed _ => true | _ => false
    | none => false
  | .int32 x, .enum x', .ref q => x == x' && match n.find q with
    | some d => match d.kind with | .enum _ _ _ => true | _ => false
    | none => false
  | .slice gs, .array vs, .array t _ => decide (vs.length < 2 ^ 63) && showAllB gs vs t
  | .dict gs, .map es, .map t _ => decide (es.length < 2 ^ 63) && showEntriesB gs es t
  | .nil, .nil, .union _ ts _ => ts.any nullTy
  | .ptr (.struct fs), .union tag (some v), .union _ ts _ => ts.any nullTy && decide (ts.length < 2 ^ 63) &&
      (match fs.lookup "UnionType".toList with | some (.int x) => x == tag | _ => false) &&
      match ts[tag.toNat]? with
      | some u => match fs.lookup (u.goName nm n) with | some m => showsB m v u | none => false
      | none => false
  | .struct fs, .record vs, .ref q => match n.find q with
    | some d => match d.kind with | .record ps _ => showFieldsB fs vs ps | _ => false
    | none => false
  | _, _, _ => false
def showAllB : List Value → List Val → PTy → Bool
  | [], [], _ => true
  | g :: gs, v :: vs, t => showsB g v t && showAllB gs vs t
  | _, _, _ => false
def showEntriesB : List (List Byte × Value) → List (List Byte × Val) → PTy → Bool
  | [], [], _ => true
  | (k, g) :: gs, (k', v) :: es, t => k == k' && showsB g v t && showEntriesB gs es t
  | _, _, _ => false
def showFieldsB (fs : List (Str × Value)) : List Val → List PField → Bool
  | [], [] => true
  | v :: vs, p :: ps => (match fs.lookup (fieldGoName nm p.name) with | some m => showsB m v p.ty | none => false) && showFieldsB fs vs ps
  | _, _ => false
end

mutual
theorem shows_of : ∀ (v : Val) (g : Value) (t : PTy), showsB nm n g v t = true → Shows nm n g v t
  | .null, g, t, h => by
    unfold showsB at h
    split at h <;> simp_all [Shows]
  | .bool _, g, t, h => by
    unfold showsB at h
    split at h <;> simp_all [Shows]
  | .int _, g, t, h => by
    unfold showsB at h
    split at h <;> simp_all [Shows]
  | .long _, g, t, h => by
    unfold showsB at h
    split at h <;> simp_all [Shows]
  | .float _, g, t, h => by
    unfold showsB at h
    split at h <;> simp_all
  | .double _, g, t, h => by
    unfold showsB at h
    split at h <;> simp_all
  | .bytes _, g, t, h => by
    unfold showsB at h
    split at h <;> simp_all
  | .string _, g, t, h => by
    unfold showsB at h
    split at h <;> simp_all [Shows]
  | .fixed x, g, t, h => by
    unfold showsB at h
    split at h <;> try (simp_all; done)
    rename_i x q e
    cases e
    simp only [Bool.and_eq_true, beq_iff_eq] at h
    obtain ⟨rfl, h⟩ := h
    split at h
    · rename_i d hd
      split at h
      · rename_i size hk
        exact ⟨rfl, _, d, size, rfl, hd, hk⟩
      · cases h
    · cases h
  | .enum x, g, t, h => by
    unfold showsB at h
    split at h <;> try (simp_all; done)
    rename_i x q e
    cases e
    simp only [Bool.and_eq_true, beq_iff_eq] at h
    obtain ⟨rfl, h⟩ := h
    split at h
    · rename_i d hd
      split at h
      · rename_i a b c hk
        exact ⟨rfl, _, d, a, b, c, rfl, hd, hk⟩
      · cases h
    · cases h
  | .array vs, g, t, h => by
    unfold showsB at h
    split at h <;> try (simp_all; done)
    rename_i gs vs' t d e
    cases e
    simp only [Bool.and_eq_true, decide_eq_true_eq] at h
    exact ⟨gs, t, d, rfl, rfl, h.1, showAll_of vs gs t h.2⟩
  | .map es, g, t, h => by
    unfold showsB at h
    split at h <;> try (simp_all; done)
    rename_i gs vs' t d e
    cases e
    simp only [Bool.and_eq_true, decide_eq_true_eq] at h
    exact ⟨gs, t, d, rfl, rfl, h.1, showEntries_of es gs t h.2⟩
  | .nil, g, t, h => by
    unfold showsB at h
    split at h <;> try (simp_all; done)
    exact ⟨rfl, _, _, _, rfl, h⟩
  | .union tag none, g, t, h => by
    unfold showsB at h
    split at h <;> simp_all
  | .union tag (some v), g, t, h => by
    unfold showsB at h
    split at h <;> try (simp_all; done)
    rename_i fs tag' v' name ts d e
    cases e
    simp only [Bool.and_eq_true, decide_eq_true_eq] at h
    obtain ⟨⟨⟨h1, h2⟩, h3⟩, h4⟩ := h
    refine ⟨fs, name, ts, d, rfl, h2, by rw [if_pos h1], ?_, fun u hu _ => ?_⟩
    · split at h3
      · rename_i x hx
        rw [hx, beq_iff_eq.1 h3]
      · cases h3
    · rw [hu] at h4
      simp only at h4
      split at h4
      · rename_i m hm
        exact ⟨m, hm, shows_of v m u h4⟩
      · cases h4
  | .record vs, g, t, h => by
    unfold showsB at h
    split at h <;> try (simp_all; done)
    rename_i fs vs' q e
    cases e
    split at h
    · rename_i d hd
      split at h
      · rename_i ps doc hk
        exact ⟨fs, q, d, ps, doc, rfl, rfl, hd, hk, showFields_of vs fs ps h⟩
      · cases h
    · cases h
theorem showAll_of : ∀ (vs : List Val) (gs : List Value) (t : PTy), showAllB nm n gs vs t = true → ShowAll nm n gs vs t
  | [], gs, t, h => by
    cases gs with
    | nil => rfl
    | cons => unfold showAllB at h; cases h
  | v :: vs, gs, t, h => by
    cases gs with
    | nil => unfold showAllB at h; cases h
    | cons g gs =>
      unfold showAllB at h
      simp only [Bool.and_eq_true] at h
      exact ⟨g, gs, rfl, shows_of v g t h.1, showAll_of vs gs t h.2⟩
theorem showEntries_of : ∀ (es : List (List Byte × Val)) (gs : List (List Byte × Value)) (t : PTy), showEntriesB nm n gs es t = true →
    ShowEntries nm n gs es t
  | [], gs, t, h => by
    cases gs with
    | nil => rfl
    | cons => unfold showEntriesB at h; simp at h
  | (k, v) :: es, gs, t, h => by
    cases gs with
    | nil => unfold showEntriesB at h; cases h
    | cons g gs =>
      obtain ⟨k', g⟩ := g
      unfold showEntriesB at h
      simp only [Bool.and_eq_true, beq_iff_eq] at h
      obtain ⟨⟨rfl, h1⟩, h2⟩ := h
      exact ⟨g, gs, rfl, shows_of v g t h1, showEntries_of es gs t h2⟩
theorem showFields_of : ∀ (vs : List Val) (fs : List (Str × Value)) (ps : List PField), showFieldsB nm n fs vs ps = true →
    ShowFields nm n fs vs ps
  | [], fs, ps, h => by
    cases ps with
    | nil => rfl
    | cons => unfold showFieldsB at h; cases h
  | v :: vs, fs, ps, h => by
    cases ps with
    | nil => unfold showFieldsB at h; cases h
    | cons p ps =>
      unfold showFieldsB at h
      simp only [Bool.and_eq_true] at h
      obtain ⟨h1, h2⟩ := h
      split at h1
      · rename_i m hm
        exact ⟨p, ps, m, rfl, hm, shows_of v m p.ty h1, showFields_of vs fs ps h2⟩
      · cases h1
end

end

/-- The types of a type, and of these, and so on. -/
def grow (n : NS) : Nat → List PTy → List PTy
  | 0, ts => ts
  | k + 1, ts => grow n k (ts ++ ts.flatMap (partsOf n)).eraseDups

def closedUnderB (n : NS) (ts : List PTy) : Bool := ts.all fun t => (partsOf n t).all fun u => decide (u ∈ ts)

theorem closedUnder_of {n : NS} {ts : List PTy} (h : closedUnderB n ts = true) : ∀ t ∈ ts, ∀ u ∈ partsOf n t, u ∈ ts := by
  intro t ht u hu
  exact of_decide_eq_true (List.all_eq_true.1 (List.all_eq_true.1 h t ht) u hu)

def declaredB (nm : Namer) (n : NS) (ts : List PTy) : Bool :=
  decide ((ts.filterMap (PTy.writer nm n)).map (·.name)).Nodup && decide ((ts.flatMap (constsOf nm n)).map (·.1)).Nodup

theorem nodup_inj {α β : Type} {f : α → β} : ∀ {l : List α}, (l.map f).Nodup → ∀ a ∈ l, ∀ b ∈ l, f a = f b → a = b
  | [], _, a, ha, _, _, _ => by cases ha
  | x :: l, h, a, ha, b, hb, e => by
    rw [List.map_cons, List.nodup_cons] at h
    rcases List.mem_cons.1 ha with rfl | ha <;> rcases List.mem_cons.1 hb with rfl | hb
    · rfl
    · exact absurd (List.mem_map.2 ⟨b, hb, e.symm⟩) h.1
    · exact absurd (List.mem_map.2 ⟨a, ‹a ∈ l›, e⟩) h.1
    · exact nodup_inj h.2 a ha b hb e

theorem declared_of {nm : Namer} {n : NS} {ts : List PTy} (h : declaredB nm n ts = true) : Declared nm n ts := by
  simp only [declaredB, Bool.and_eq_true, decide_eq_true_eq] at h
  exact ⟨fun t ht u hu f g hf hg e => nodup_inj h.1 f (List.mem_filterMap.2 ⟨t, ht, hf⟩) g (List.mem_filterMap.2 ⟨u, hu, hg⟩) e,
    fun c hc c' hc' e => nodup_inj h.2 c hc c' hc' e⟩

/-- A record with a fixed, an array, a map, an enum, and an optional union with the record itself. -/
def codeDoc : Json := jobj [("fields", .arr [
    jobj [("name", jstr "id"), ("type", jobj [("name", jstr "F"), ("size", .num 2), ("type", jstr "fixed")])],
    jobj [("name", jstr "tags"), ("type", jobj [("items", jstr "string"), ("type", jstr "array")])],
    jobj [("name", jstr "counts"), ("type", jobj [("type", jstr "map"), ("values", jstr "int")])],
    jobj [("name", jstr "kind"), ("type", jobj [("name", jstr "E"), ("symbols", .arr [jstr "A", jstr "B"]), ("type", jstr "enum")])],
    jobj [("name", jstr "next"), ("type", .arr [jstr "null", jstr "R", jstr "string"])]]),
  ("name", jstr "R"), ("namespace", jstr "x"), ("type", jstr "record")]

def qCode : QName := ⟨"x".toList, "R".toList⟩

/-- The Avro value. -/
def codeVal : Val := .record [.fixed [1, 2], .array [.string [65], .string []], .map [([65], .int 1), ([66], .int 2)], .enum 1,
  .union 1 (some (.record [.fixed [3, 4], .array [], .map [], .enum 0, .nil]))]

/-- The Go value: `R{Id: …, Tags: …, Counts: …, Kind: …, Next: &UnionNullRString{R: …, UnionType: 1}}`. -/
def codeGo : Value := .struct [
  ("Id".toList, .bytes [1, 2]), ("Tags".toList, .slice [.str [65], .str []]), ("Counts".toList, .dict [([65], .int32 1), ([66], .int32 2)]),
  ("Kind".toList, .int32 1),
  ("Next".toList, .ptr (.struct [
    ("Null".toList, .nil),
    ("R".toList, .struct [("Id".toList, .bytes [3, 4]), ("Tags".toList, .slice []), ("Counts".toList, .dict []), ("Kind".toList, .int32 0),
      ("Next".toList, .nil)]),
    ("String".toList, .str []), ("UnionType".toList, .int 1)]))]

/-- A writer with room for `cap` bytes; maps are visited from behind. -/
def codeMachine (cap : Nat) : Machine (List Byte) where
  o := boundedWriter cap
  byteWriter := false
  order _ k := (List.range k).reverse
  orderPerm _ n := List.reverse_perm _

def codeTypes (n : NS) : List PTy := grow n 3 [.ref qCode]

def codeB (n : NS) : Bool :=
  documentB qCode n && hasTyB n.env 1000 codeVal (.ref qCode) && showsB .simple n codeGo codeVal (.ref qCode) &&
  declaredB .simple n (codeTypes n) && closedUnderB n (codeTypes n) && decide (.ref qCode ∈ codeTypes n) &&
  decide ((codeTypes n).length = 9)

/-- The document passes the checks; the program writes the value and it is read back, whatever the room. -/
example (cap : Nat) : ∃ n d err st', parseCommand false [codeDoc] = .ok n ∧ n.find qCode = some d ∧
    Returns (codeMachine cap) (packageOf .simple n (codeTypes n)) (serializeMethod (d.goName .simple) (.named (d.goName .simple)))
      [codeGo, .writer] ⟨[], 0⟩ [.error err] st' ∧
    (err = none → ∃ j s, recordSchema n d = some j ∧ parseSchema j = .ok s ∧
      ∃ rd', Deserializes (demo false) s s [st'.w, [7]] (.value codeVal rd') ∧ rd'.flatten = [7]) := by
  obtain ⟨n, h1, h2⟩ := readAs_ok (js := [codeDoc]) (p := codeB) (by decide +kernel)
  simp only [codeB, Bool.and_eq_true, decide_eq_true_eq] at h2
  obtain ⟨⟨⟨⟨⟨⟨h2, h3⟩, h4⟩, h5⟩, h6⟩, h7⟩, -⟩ := h2
  obtain ⟨h8, d, fs, doc, a1, a2, a3, a4⟩ := document_of h1 h2
  obtain ⟨err, st', b1, b2⟩ := code_roundtrip_partial h1 h8 a1 a2 a3 a4 (demo_delivers false) (by decide) (codeMachine cap)
    (boundedWriter_takes cap) .simple (codeTypes n) (declared_of h5) (closedUnder_of h6) h7 codeGo codeVal (shows_of _ _ _ _ _ h4)
    (hasTy_of _ _ h3) ⟨[], 0⟩
  refine ⟨n, d, err, st', h1, a1, b1, fun he => ?_⟩
  obtain ⟨e, j, s, c1, c2, c3, c4⟩ := b2 he
  obtain ⟨rd', c5, c6⟩ := c4 [st'.w, [7]] [7] (by simp only [List.nil_append] at c1; simp [c1])
  exact ⟨j, s, c2, c3, rd', c5, c6⟩

/-- An optional array of strings: the text of its serializer is the program. -/
example : (PTy.writerText .simple {} (.union [] [.prim .null .null, .array (.prim .string .null) .null] [])).map tokens =
    some (some (unionFunc .simple {} "UnionNullArrayString".toList (.pointer (.named "UnionNullArrayString".toList)) "*UnionNullArrayString".toList
      [.prim .null .null, .array (.prim .string .null) .null]).toks) := by
  rw [serializer_text .simple {} (.union [] [.prim .null .null, .array (.prim .string .null) .null] []) ⟨.inl rfl, trivial, trivial, trivial⟩
    (by intro q d fs doc h; cases h)]
  have h1 : PTy.goName .simple {} (.union [] [.prim .null .null, .array (.prim .string .null) .null] []) = "UnionNullArrayString".toList := by
    decide +kernel
  have h2 : PTy.goType .simple {} (.union [] [.prim .null .null, .array (.prim .string .null) .null] []) = "*UnionNullArrayString".toList := by
    decide +kernel
  simp only [PTy.writer, goTypeOf, h1, h2]
  rfl

/-- A union that names none of its members: the program writes the number and returns an error. -/
example : ∃ st', Returns (codeMachine 100) (packageOf .simple {} (grow {} 1 [.union [] [.prim .int .null, .prim .string .null] []]))
    (serializeMethod "UnionIntString".toList (.named "UnionIntString".toList)) [.struct [("UnionType".toList, .int 7)], .writer] ⟨[], 0⟩
      [.error (some .invalid)] st' ∧ st'.w = [14] := by
  have hn : PTy.goName .simple {} (.union [] [.prim .int .null, .prim .string .null] []) = "UnionIntString".toList := by decide +kernel
  obtain ⟨mo, st', h1, h2⟩ := serialize_runs (codeMachine 100) (packageOf .simple {} (grow {} 1 [.union [] [.prim .int .null, .prim .string .null] []]))
    .simple {} (.union [] [.prim .int .null, .prim .string .null] [])
    (fun u hu => package_has .simple {} _ (declared_of (by decide +kernel)) u
      (within_closed {} (closedUnder_of (by decide +kernel)) hu (by decide +kernel))) _ rfl
    (.struct [("UnionType".toList, .int 7)]) (.union 7 (some .null))
    ⟨[("UnionType".toList, .int 7)], [], _, [], rfl, by decide, rfl, by simp [List.lookup_cons], by intro u hu; cases hu⟩ ⟨[], 0⟩
  have hs : serialize ({} : NS).env (codeMachine 100).byteWriter mo (.union 7 (some .null))
      (PTy.union [] [.prim .int .null, .prim .string .null] []).erase = (writeLong false 7, false) := by
    simp [serialize, ser, PTy.erase, PTy.erases, Prim.ty, codeMachine, SerOut.andThen]
  have hr : runSer (boundedWriter 100) [] (writeLong false 7, false) = ([14], some .invalid) := by decide +kernel
  have ht : goTypeOf .simple {} (.union [] [.prim .int .null, .prim .string .null] []) = .named "UnionIntString".toList := by
    simp only [goTypeOf, hn]; rfl
  rw [hs, show runSer (codeMachine 100).o (World.mk [] 0).w (writeLong false 7, false) = _ from hr] at h1 h2
  rw [hn, ht] at h1
  exact ⟨st', h1, h2⟩

end Verif.Props
