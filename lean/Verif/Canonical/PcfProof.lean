import Verif.Canonical.FormProof
import Verif.Parser.Inv
import Verif.Spec.Pcf
/-
The canonical form is the one the Avro specification describes.
-/
set_option linter.unusedSimpArgs false
set_option linter.unusedVariables false
namespace Verif
open Spec

theorem legal_not_escaped {c : Char} (h : c.isAlphanum = true ∨ c = '_' ∨ c = '.') : escaped c = false := by
  rcases h with h | rfl | rfl
  · simp only [Char.isAlphanum, Char.isAlpha, Char.isUpper, Char.isLower, Char.isDigit, Bool.or_eq_true, Bool.and_eq_true,
      decide_eq_true_eq] at h
    simp only [escaped, Bool.or_eq_false_iff, decide_eq_false_iff_not, beq_eq_false_iff_ne, ne_eq]
    have hv : c.toNat = c.val.toNat := rfl
    simp only [UInt32.le_iff_toNat_le, ge_iff_le] at h
    have e1 : 'A'.val.toNat = 65 := rfl
    have e2 : 'Z'.val.toNat = 90 := rfl
    have e3 : 'a'.val.toNat = 97 := rfl
    have e4 : 'z'.val.toNat = 122 := rfl
    have e5 : '0'.val.toNat = 48 := rfl
    have e6 : '9'.val.toNat = 57 := rfl
    rw [e1, e2, e3, e4, e5, e6, ← hv] at h
    clear e1 e2 e3 e4 e5 e6 hv
    refine ⟨⟨⟨⟨⟨⟨⟨by omega, ?_⟩, ?_⟩, ?_⟩, ?_⟩, ?_⟩, by omega⟩, by omega⟩ <;>
      (rintro rfl; revert h; decide)
  · decide
  · decide

theorem quote_legal {s : Str} (h : LegalText s) : quote s = inQuotes s := by
  have : s.flatMap quoteChar = s := by
    induction s with
    | nil => rfl
    | cons c s ih =>
      rw [List.flatMap_cons, ih fun x hx => h x (by simp [hx])]
      unfold quoteChar
      rw [if_neg (by rw [legal_not_escaped (h c (by simp))]; decide)]
      rfl
  unfold quote inQuotes
  rw [this]

theorem fullText_str (q : QName) : fullText q = q.str := by
  obtain ⟨ns, n⟩ := q
  cases ns <;> simp [fullText, QName.str]

theorem printInt_decimal (n : Int) : printInt n = decimal n := by cases n <;> rfl

theorem printRest_commas : ∀ (c : Canon) (cs : List Canon),
    c.print ++ Canon.printRest cs = commas ((c :: cs).map Canon.print) ++ "]".toList
  | c, [] => by simp [Canon.printRest, commas]
  | c, d :: cs => by
    have ih := printRest_commas d cs
    simp only [Canon.printRest, List.map_cons, commas] at ih ⊢
    simp only [List.cons_append, List.append_assoc] at ih ⊢
    rw [ih]

theorem print_arr (cs : List Canon) : (Canon.arr cs).print = "[".toList ++ commas (cs.map Canon.print) ++ "]".toList := by
  cases cs with
  | nil => rfl
  | cons c cs =>
    simp only [Canon.print]
    rw [List.cons_append, printRest_commas]
    simp [List.append_assoc]

theorem prim_quoted {s : Str} {p : Prim} (h : (s, p) ∈ primNames) (e : Env) (n : Nat) (vis : List Str) :
    canonTy e (n + 1) p.ty vis = some (.str s, vis) ∧ quote s = inQuotes s := by
  simp only [primNames, List.mem_cons, Prod.mk.injEq, List.not_mem_nil, or_false] at h
  rcases h with ⟨rfl, rfl⟩ | ⟨rfl, rfl⟩ | ⟨rfl, rfl⟩ | ⟨rfl, rfl⟩ | ⟨rfl, rfl⟩ | ⟨rfl, rfl⟩ | ⟨rfl, rfl⟩ | ⟨rfl, rfl⟩ <;>
    exact ⟨rfl, by decide⟩

theorem canonDef_new (f : Canonizer) (d : Def) {vis : List Str} {q : QName} (hq : d.name = q) (h : q.str ∉ vis) :
    canonDef f d vis = match d.kind with
    | .record fs => match canonFields f fs (q.str :: vis) with
      | none => none
      | some (cs, vis) => some (.obj ([("name".toList, .str q.str), ("type".toList, .str "record".toList)] ++
          nonEmpty "fields".toList cs), vis)
    | .enum ss _ => some (.obj ([("name".toList, .str q.str), ("type".toList, .str "enum".toList)] ++
          nonEmpty "symbols".toList (ss.map .str)), q.str :: vis)
    | .fixed n => some (.obj [("name".toList, .str q.str), ("type".toList, .str "fixed".toList),
          ("size".toList, .num n)], q.str :: vis) := by
  subst hq
  unfold canonDef
  rw [if_neg h]
  cases d.kind <;> rfl

section
variable {env : Env} {ds : List PDef}

/-- The names seen are names of definitions. -/
def GoodNames (ds : List PDef) (seen : List QName) : Prop := ∀ q ∈ seen, '.' ∉ q.name ∧ ∃ p ∈ ds, p.name = q

theorem str_not_mem {seen : List QName} (hg : GoodNames ds seen) {q : QName} (hq : '.' ∉ q.name) (h : q ∉ seen) :
    q.str ∉ seen.map QName.str := by
  intro hc
  obtain ⟨q', h1, h2⟩ := List.mem_map.1 hc
  exact h (qname_str_inj (hg q' h1).1 hq h2 ▸ h1)

theorem pcf_canon (hc : Compatible ds) (henv : ∀ q d, env.find q = some d ↔ ∃ p ∈ ds, KnownAs p q ∧ d = p.erase)
    (hne : ∀ p ∈ ds, (∀ doc, p.kind ≠ .record [] doc) ∧ ∀ doc dflt, p.kind ≠ .enum [] doc dflt)
    {enc seen j text seen'} (h : Pcf enc seen j text seen') :
    ∀ short name t ds0, Describes short name enc j t ds0 → (∀ d ∈ ds0, d ∈ ds) → GoodNames ds seen →
      (∃ n c, canonTy env n t.erase (seen.map QName.str) = some (c, seen'.map QName.str) ∧ c.print = text) ∧
      GoodNames ds seen' := by
  have hfind : ∀ p ∈ ds, env.find p.name = some p.erase := fun p hp => (henv _ _).2 ⟨p, hp, .inl rfl, rfl⟩
  refine Pcf.rec
    (motive_1 := fun enc seen j text seen' _ => ∀ short name t ds0, Describes short name enc j t ds0 →
      (∀ d ∈ ds0, d ∈ ds) → GoodNames ds seen →
      (∃ n c, canonTy env n t.erase (seen.map QName.str) = some (c, seen'.map QName.str) ∧ c.print = text) ∧
      GoodNames ds seen')
    (motive_2 := fun enc seen js texts seen' _ => ∀ short name ts ds0, DescribesAll short name enc js ts ds0 →
      (∀ d ∈ ds0, d ∈ ds) → GoodNames ds seen →
      (∃ n cs, canonMembers (canonTy env n) (PTy.erases ts) (seen.map QName.str) = some (cs, seen'.map QName.str) ∧
        cs.map Canon.print = texts) ∧ GoodNames ds seen')
    (motive_3 := fun enc seen js texts seen' _ => ∀ short fs ds0, DescribesFields short enc js fs ds0 →
      (∀ d ∈ ds0, d ∈ ds) → GoodNames ds seen →
      (∃ n cs, canonFields (canonTy env n) (fs.map PField.erase) (seen.map QName.str) = some (cs, seen'.map QName.str) ∧
        cs.map Canon.print = texts) ∧ GoodNames ds seen')
    ?_ ?_ ?_ ?_ ?_ ?_ ?_ ?_ ?_ ?_ ?_ ?_ ?_ h
  · intro enc seen s p hp short name t ds0 h1 hs hg
    obtain rfl : t = .prim p (.str s) := by
      cases h1 with
      | prim hp' => rw [prim_unique hp hp']
      | named hn => exact absurd hp (hn _)
    obtain ⟨h2, h3⟩ := prim_quoted hp env 0 (seen.map QName.str)
    exact ⟨⟨_, _, h2, h3⟩, hg⟩
  · intro enc seen o s p hp ho short name t ds0 h1 hs hg
    obtain ⟨rfl, rfl⟩ := h1.prim_inv hp ho
    obtain ⟨h2, h3⟩ := prim_quoted hp env 0 (seen.map QName.str)
    exact ⟨⟨_, _, h2, h3⟩, hg⟩
  · intro enc seen s q hn hq hm hl short name t ds0 h1 hs hg
    obtain rfl : t = .ref q := by
      cases h1 with
      | prim hp' => exact absurd hp' (hn _)
      | named hn' hq' => rw [fullName_unique hq hq']
    obtain ⟨hp, p, hpd, rfl⟩ := hg q hm
    refine ⟨⟨1, .str p.name.str, ?_, ?_⟩, hg⟩
    · simp only [PTy.erase, canonTy]
      rw [hfind p hpd]
      simp only [canonDef]
      rw [if_pos (show p.erase.name.str ∈ _ from List.mem_map.2 ⟨_, hm, rfl⟩)]
      rfl
    · simp only [Canon.print]
      rw [fullText_str] at hl ⊢
      exact quote_legal hl
  · intro enc seen js ts seen' _ ih short name t ds0 h1 hs hg
    cases h1 with
    | union h1 =>
      obtain ⟨⟨n, cs, h2, h3⟩, h4⟩ := ih _ _ _ _ h1 hs hg
      refine ⟨⟨n + 1, .arr cs, ?_, ?_⟩, h4⟩
      · simp only [PTy.erase, canonTy]; rw [h2]
      · rw [print_arr, h3]
  · intro enc seen o j t seen' ho hi _ ih short name t ds0 h1 hs hg
    obtain ⟨j', u, e1, e2, rfl⟩ := h1.array_inv ho
    rw [hi] at e1; cases e1
    obtain ⟨⟨n, c, h2, h3⟩, h4⟩ := ih _ _ _ _ e2 hs hg
    refine ⟨⟨n + 1, .obj [("type".toList, .str "array".toList), ("items".toList, c)], ?_, ?_⟩, h4⟩
    · simp only [PTy.erase, canonTy]; rw [h2]
    · simp only [Canon.print, Canon.printEntries, h3]
      rw [show quote "type".toList = "\"type\"".toList by decide +kernel,
        show quote "array".toList = "\"array\"".toList by decide +kernel,
        show quote "items".toList = "\"items\"".toList by decide +kernel]
      simp
  · intro enc seen o j t seen' ho hi _ ih short name t ds0 h1 hs hg
    obtain ⟨j', u, e1, e2, rfl⟩ := h1.map_inv ho
    rw [hi] at e1; cases e1
    obtain ⟨⟨n, c, h2, h3⟩, h4⟩ := ih _ _ _ _ e2 hs hg
    refine ⟨⟨n + 1, .obj [("type".toList, .str "map".toList), ("values".toList, c)], ?_, ?_⟩, h4⟩
    · simp only [PTy.erase, canonTy]; rw [h2]
    · simp only [Canon.print, Canon.printEntries, h3]
      rw [show quote "type".toList = "\"type\"".toList by decide +kernel,
        show quote "map".toList = "\"map\"".toList by decide +kernel,
        show quote "values".toList = "\"values\"".toList by decide +kernel]
      simp
  · intro enc seen o q ss ho hq hn hss hl short name t ds0 h1 hs hg
    obtain ⟨q', qs, ss', doc, dflt, e1, e2, rfl, rfl⟩ := h1.enum_inv ho
    obtain rfl := nameOf_unique hq.1 e1
    rw [hss] at e2
    simp only [Option.some.injEq, Json.arr.injEq] at e2
    obtain rfl := strs_inj e2
    have hpd := hs _ (List.mem_singleton.2 rfl)
    have hpl := nameOf_plain e1
    refine ⟨⟨1, .obj ([("name".toList, .str q.str), ("type".toList, .str "enum".toList)] ++
      nonEmpty "symbols".toList (ss.map .str)), ?_, ?_⟩, ?_⟩
    · simp only [PTy.erase, canonTy]
      rw [hfind _ hpd]
      dsimp only
      rw [canonDef_new _ _ rfl (str_not_mem hg hpl hn)]
      rfl
    · cases hx : ss with
      | nil => rw [hx] at hpd; exact absurd rfl ((hne _ hpd).2 _ _)
      | cons a l =>
        simp only [PDef.erase, nonEmpty, List.map_cons, Canon.print, Canon.printEntries, List.cons_append, List.nil_append]
        have hpr := printRest_commas (.str a) (l.map Canon.str)
        simp only [Canon.print] at hpr
        rw [hpr]
        have hq2 : quote q.str = inQuotes (fullText q) := by
          have := hq.2.2
          rw [fullText_str] at this ⊢
          exact quote_legal this
        rw [hq2, show quote "name".toList = "\"name\"".toList by decide +kernel,
          show quote "type".toList = "\"type\"".toList by decide +kernel,
          show quote "enum".toList = "\"enum\"".toList by decide +kernel,
          show quote "symbols".toList = "\"symbols\"".toList by decide +kernel]
        have hm : (Canon.str a :: l.map Canon.str).map Canon.print = inQuotes a :: l.map inQuotes := by
          have : ∀ l' : List Str, (∀ s ∈ l', LegalText s) → (l'.map Canon.str).map Canon.print = l'.map inQuotes := by
            intro l' hl'
            rw [List.map_map]
            refine List.map_congr_left fun s hs => ?_
            show quote s = _
            exact quote_legal (hl' s hs)
          exact this (a :: l) (hx ▸ hl)
        rw [hm]
        simp
    · intro x hx
      rcases List.mem_cons.1 hx with rfl | hx
      · exact ⟨hpl, _, hpd, rfl⟩
      · exact hg x hx
  · intro enc seen o q size ho hq hn hsz short name t ds0 h1 hs hg
    obtain ⟨q', qs, size', e1, e2, rfl, rfl⟩ := h1.fixed_inv ho
    obtain rfl := nameOf_unique hq.1 e1
    obtain rfl := fixedSize_unique (.inl hsz) e2
    have hpd := hs _ (List.mem_singleton.2 rfl)
    have hpl := nameOf_plain e1
    refine ⟨⟨1, .obj [("name".toList, .str q.str), ("type".toList, .str "fixed".toList), ("size".toList, .num size)],
      ?_, ?_⟩, ?_⟩
    · simp only [PTy.erase, canonTy]
      rw [hfind _ hpd]
      dsimp only
      rw [canonDef_new _ _ rfl (str_not_mem hg hpl hn)]
      rfl
    · simp only [PDef.erase, Canon.print, Canon.printEntries, List.cons_append, List.nil_append]
      have hq2 : quote q.str = inQuotes (fullText q) := by
        have := hq.2.2
        rw [fullText_str] at this ⊢
        exact quote_legal this
      rw [hq2, printInt_decimal, show quote "name".toList = "\"name\"".toList by decide +kernel,
        show quote "type".toList = "\"type\"".toList by decide +kernel,
        show quote "fixed".toList = "\"fixed\"".toList by decide +kernel,
        show quote "size".toList = "\"size\"".toList by decide +kernel]
      simp
    · intro x hx
      rcases List.mem_cons.1 hx with rfl | hx
      · exact ⟨hpl, _, hpd, rfl⟩
      · exact hg x hx
  · intro enc seen o q js ts seen' ho hq hn hf _ ih short name t ds0 h1 hs hg
    obtain ⟨q', qs, js', fs, doc, ds1, e1, e2, e3, rfl, rfl⟩ := h1.record_inv ho
    obtain rfl := nameOf_unique hq.1 e1
    rw [hf] at e2; cases e2
    have hpd := hs _ (List.mem_append_right _ (List.mem_singleton.2 rfl))
    have hpl := nameOf_plain e1
    have hg' : GoodNames ds (q :: seen) := by
      intro x hx
      rcases List.mem_cons.1 hx with rfl | hx
      · exact ⟨hpl, _, hpd, rfl⟩
      · exact hg x hx
    obtain ⟨⟨n, cs, h2, h3⟩, h4⟩ := ih _ _ _ e3 (fun d hd => hs d (List.mem_append_left _ hd)) hg'
    refine ⟨⟨n + 1, .obj ([("name".toList, .str q.str), ("type".toList, .str "record".toList)] ++
      nonEmpty "fields".toList cs), ?_, ?_⟩, h4⟩
    · simp only [PTy.erase, canonTy]
      rw [hfind _ hpd]
      dsimp only
      rw [canonDef_new _ _ rfl (str_not_mem hg hpl hn)]
      simp only [PDef.erase]
      rw [show q.str :: seen.map QName.str = (q :: seen).map QName.str from rfl, h2]
    · cases hx : cs with
      | nil =>
        exfalso
        cases fs with
        | nil => exact absurd rfl ((hne _ hpd).1 _)
        | cons f fs =>
          subst hx
          simp only [List.map_cons, canonFields] at h2
          split at h2
          · cases h2
          split at h2 <;> cases h2
      | cons a l =>
        simp only [nonEmpty, List.map_cons, Canon.print, Canon.printEntries, List.cons_append, List.nil_append]
        rw [printRest_commas, ← hx, h3]
        have hq2 : quote q.str = inQuotes (fullText q) := by
          have := hq.2.2
          rw [fullText_str] at this ⊢
          exact quote_legal this
        rw [hq2, show quote "name".toList = "\"name\"".toList by decide +kernel,
          show quote "type".toList = "\"type\"".toList by decide +kernel,
          show quote "record".toList = "\"record\"".toList by decide +kernel,
          show quote "fields".toList = "\"fields\"".toList by decide +kernel]
        simp
  · intro enc seen short name ts ds0 h1 hs hg
    cases h1
    exact ⟨⟨0, [], rfl, rfl⟩, hg⟩
  · intro enc seen j t seen' js ts seen'' _ _ ih1 ih2 short name ts0 ds0 h1 hs hg
    cases h1 with
    | cons a b =>
      obtain ⟨⟨n, c, h2, h3⟩, h4⟩ := ih1 _ _ _ _ a (fun d hd => hs d (List.mem_append_left _ hd)) hg
      obtain ⟨⟨m, cs, h5, h6⟩, h7⟩ := ih2 _ _ _ _ b (fun d hd => hs d (List.mem_append_right _ hd)) h4
      refine ⟨⟨n + m, c :: cs, ?_, ?_⟩, h7⟩
      · simp only [PTy.erases, canonMembers]
        rw [canonTy_le env (Nat.le_add_right n m) _ _ _ h2]
        dsimp only
        rw [canonMembers_le (canonTy_le env (Nat.le_add_left m n)) _ _ _ h5]
      · rw [List.map_cons, h3, h6]
  · intro ns seen short fs ds0 h1 hs hg
    cases h1
    exact ⟨⟨0, [], rfl, rfl⟩, hg⟩
  · intro ns seen o nm j t seen' js ts seen'' hn hl hj _ _ ih1 ih2 short fs0 ds0 h1 hs hg
    cases h1 with
    | cons a1 a2 a3 a4 a5 a6 a7 =>
      rw [hn] at a1; cases a1
      rw [hj] at a2; cases a2
      obtain ⟨⟨n, c, h2, h3⟩, h4⟩ := ih1 _ _ _ _ a3 (fun d hd => hs d (List.mem_append_left _ hd)) hg
      obtain ⟨⟨m, cs, h5, h6⟩, h7⟩ := ih2 _ _ _ a7 (fun d hd => hs d (List.mem_append_right _ hd)) h4
      refine ⟨⟨n + m, .obj [("name".toList, .str nm), ("type".toList, c)] :: cs, ?_, ?_⟩, h7⟩
      · simp only [List.map_cons, canonFields]
        have h2' := canonTy_le env (Nat.le_add_right n m) _ _ _ h2
        have h5' := canonFields_le (canonTy_le env (Nat.le_add_left m n)) _ _ _ h5
        simp only [PField.erase] at h2' h5' ⊢
        rw [h2']
        dsimp only
        rw [h5']
      · rw [List.map_cons, h6]
        congr 1
        simp only [Canon.print, Canon.printEntries, h3]
        rw [quote_legal hl, show quote "name".toList = "\"name\"".toList by decide +kernel,
          show quote "type".toList = "\"type\"".toList by decide +kernel]
        simp
end

end Verif
