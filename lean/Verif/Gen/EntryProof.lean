import Verif.Gen.EntryLib
/-
What the statements of Gen/Entry do with the library of Gen/EntryLib.
-/
namespace Verif
open Spec.GoE
set_option linter.unusedSimpArgs false
set_option autoImplicit false

section
variable {R W : Type} {σ : Setting R} {L : Ocf.Libs} {read : List Byte → Option Json} {E : Ocf.WEnv W} {name : Str} {schema : List Byte} {s : Schema} {null : Bool}

local notation "Y" => entryLib σ L read E name schema s null

theorem vars_self {L : Lib} (S : Vars L) (x : Str) (o : Obj L) : S.set x o x = some o := if_pos rfl

theorem vars_other {L : Lib} (S : Vars L) {x y : Str} (o : Obj L) (h : y ≠ x) : S.set x o y = S y := if_neg h

theorem own_gives {S : Vars Y} {v : Tgt} (h : S "t".toList = some (.value v)) (x : List Byte) : Gives S ownSchema x ↔ x = schema := by
  constructor
  · intro g
    cases g with
    | value h1 h2 => exact h2.2
    | file h1 h2 => rw [h] at h1; cases h1
  · rintro rfl
    exact .value (v := v) h ⟨rfl, rfl⟩

theorem var_gives {L : Lib} {S : Vars L} {y : Str} {b : List Byte} (h : S y = some (.text b)) (x : List Byte) : Gives S (.var y) x ↔ x = b := by
  constructor
  · intro g
    cases g with
    | var h1 => rw [h] at h1; cases h1; rfl
  · rintro rfl
    exact .var h

/-- The new value. -/
def fresh (s : Schema) : Tgt := .new s.env s.root none

/-- The statements of the four functions that decode. `again`: the error is looked at a second time. -/
def decodeBody (name : Str) (a : Txt) (addr again : Bool) : List Spec.GoE.St :=
  .new "t".toList (newName name) :: .compile "deser".toList a ownSchema :: .giveUp "t".toList ::
    .eval false (.var "r".toList) (.var "deser".toList) addr "t".toList :: ((if again then [.giveUp "t".toList] else []) ++ [.ret "t".toList])

theorem ends_iff {S : Vars Y} {again : Bool} {v : Tgt} {er : Option EntryErr} {o : Ended Y} (hv : S "t".toList = some (.value v)) :
    Runs Y ((if again then [.giveUp "t".toList] else []) ++ [.ret "t".toList]) S er o ↔ o = ⟨.value v, er, S⟩ := by
  have hop : operand S "t".toList = some (.value v) := by
    unfold operand
    rw [if_neg (by decide)]
    exact hv
  constructor
  · intro h
    cases again with
    | false =>
      cases h with
      | ret h1 => rw [hop] at h1; cases h1; rfl
    | true =>
      cases h with
      | goOn h =>
        cases h with
        | ret h1 => rw [hop] at h1; cases h1; rfl
      | gaveUp h1 => rw [hop] at h1; cases h1; rfl
  · rintro rfl
    cases again with
    | false => exact .ret hop
    | true =>
      cases er with
      | none => exact .goOn (.ret hop)
      | some e => exact .gaveUp hop

theorem decode_iff {S : Vars Y} {a : Txt} {b : List Byte} {addr again : Bool} {rd : R ⊕ Ocf.Reader R} {o : Ended Y} (hr : S "r".toList = some (.reader rd))
    (ha : ∀ x, Gives (S.set "t".toList (.value (fresh s))) a x ↔ x = b) (hp : addr = !null) :
    Runs Y (decodeBody name a addr again) S none o ↔
      (∃ e, compileBytes read σ.ord b schema = .error e ∧ o = ⟨.value (fresh s), some e, (S.set "t".toList (.value (fresh s))).set "deser".toList .nil⟩) ∨
      ∃ p t' r' er, compileBytes read σ.ord b schema = .ok p ∧ EvalOn σ L s.env rd p (fresh s) t' r' er ∧
        o = ⟨.value t', er, (((S.set "t".toList (.value (fresh s))).set "deser".toList (.program p)).set "r".toList (.reader r')).set "t".toList (.value t')⟩ := by
  have ht : (S.set "t".toList (.value (fresh s))) "t".toList = some (.value (fresh s)) := vars_self ..
  have hop : ∀ o, operand (Vars.set (S.set "t".toList (.value (fresh s))) "deser".toList o) "t".toList = some (.value (fresh s)) := by
    intro o
    unfold operand
    rw [if_neg (by decide), vars_other _ _ (by decide)]
    exact ht
  constructor
  · intro h
    cases h with
    | new h1 h =>
      obtain ⟨-, rfl⟩ := h1
      cases h with
      | compiled g1 g2 hc h =>
        cases (ha _).1 g1
        cases (own_gives (v := fresh s) ht _).1 g2
        cases h with
        | goOn h =>
          cases h with
          | eval r1 p1 x1 _ e1 h =>
            cases r1 with
            | var r1 =>
              cases p1 with
              | var p1 =>
                rw [vars_other _ _ (by decide), vars_other _ _ (by decide), hr] at r1
                cases r1
                rw [vars_self] at p1
                cases p1
                rw [vars_other _ _ (by decide), vars_self] at x1
                cases x1
                exact .inr ⟨_, _, _, _, hc, e1, (ends_iff (vars_self ..)).1 h⟩
      | notCompiled g1 g2 hc h =>
        cases (ha _).1 g1
        cases (own_gives (v := fresh s) ht _).1 g2
        cases h with
        | gaveUp h1 =>
          rw [show Tgt.new s.env s.root none = fresh s from rfl, hop] at h1
          cases h1
          exact .inl ⟨_, hc, rfl⟩
  · rintro (⟨e, h1, rfl⟩ | ⟨p, t', r', er, h1, h2, rfl⟩)
    · exact .new ⟨rfl, rfl⟩ (.notCompiled ((ha _).2 rfl) ((own_gives (v := fresh s) ht _).2 rfl) h1 (.gaveUp (hop _)))
    · have h3 : Spec.GoE.Reader (L := Y) ((S.set "t".toList (.value (fresh s))).set "deser".toList (.program p)) (.var "r".toList) rd _ := .var (by
        rw [vars_other _ _ (by decide), vars_other _ _ (by decide)]; exact hr)
      refine .new ⟨rfl, rfl⟩ (.compiled ((ha _).2 rfl) ((own_gives (v := fresh s) ht _).2 rfl) h1 (.goOn
        (.eval (L := Y) (r := rd) (v := fresh s) (v' := t') (r' := r') (er := er) h3 (.var (vars_self ..)) ?_ hp h2 ((ends_iff (vars_self ..)).2 rfl))))
      rw [vars_other _ _ (by decide)]
      exact ht

theorem evalOn_inl {re : Env} {r : R} {p : Program} {t t' : Tgt} {x : R ⊕ Ocf.Reader R} {er : Option EntryErr} :
    EvalOn σ L re (.inl r) p t t' x er ↔ ∃ r', x = .inl r' ∧ ((er = none ∧ Evaluates σ.ro (genOps re σ.lim σ.dv) p r t (.ok (r', t'))) ∨
      ∃ e, er = some (.eval e) ∧ Evaluates σ.ro (genOps re σ.lim σ.dv) p r t (.error e)) := by
  constructor
  · intro h
    cases h with
    | plain h => exact ⟨_, rfl, .inl ⟨rfl, h⟩⟩
    | plainErr h => exact ⟨_, rfl, .inr ⟨_, rfl, h⟩⟩
  · rintro ⟨r', rfl, ⟨rfl, h⟩ | ⟨e, rfl, h⟩⟩
    · exact .plain h
    · exact .plainErr h

theorem evalOn_inr {re : Env} {r : Ocf.Reader R} {p : Program} {t t' : Tgt} {x : R ⊕ Ocf.Reader R} {er : Option EntryErr} :
    EvalOn σ L re (.inr r) p t t' x er ↔ ∃ r', x = .inr r' ∧ ((er = none ∧ Evaluates (σ.inside L).ro (genOps re σ.lim σ.dv) p r t (.ok (r', t'))) ∨
      ∃ e, er = some (.eval e) ∧ Evaluates (σ.inside L).ro (genOps re σ.lim σ.dv) p r t (.error e)) := by
  constructor
  · intro h
    cases h with
    | file h => exact ⟨_, rfl, .inl ⟨rfl, h⟩⟩
    | fileErr h => exact ⟨_, rfl, .inr ⟨_, rfl, h⟩⟩
  · rintro ⟨r', rfl, ⟨rfl, h⟩ | ⟨e, rfl, h⟩⟩
    · exact .file h
    · exact .fileErr h

theorem compileBytes_eq {ord : Orders} {a b : List Byte} {ja jb : Json} {sa sb : Schema} (h1 : read a = some ja) (h2 : parseSchema ja = .ok sa)
    (h3 : read b = some jb) (h4 : parseSchema jb = .ok sb) :
    compileBytes read ord a b = match compile ord false sa sb with | .error e => .error (.compile e) | .ok p => .ok p := by
  have hb : parseBytes read b = .ok sb := by
    unfold parseBytes
    rw [h3]
    show (match parseSchema jb with | .error e => Except.error (EntryErr.schema e) | .ok s => .ok s) = _
    rw [h4]
  have ha : parseBytes read a = .ok sa := by
    unfold parseBytes
    rw [h1]
    show (match parseSchema ja with | .error e => Except.error (EntryErr.schema e) | .ok s => .ok s) = _
    rw [h2]
  unfold compileBytes
  simp only [hb, ha]
  generalize compile ord false sa sb = x
  cases x <;> rfl

/-! ### Container files -/

theorem newWriter_iff {w : W} {c : List Byte} {k : BitVec 64} {o : Ended Y} :
    Calls Y (newWriterFn name) [.other (.sink w), .other (.codec c), .other (.count k)] o ↔
      ∃ E', E' = { E with codec := c, per := k, schema := schema } ∧ o.result = .other (.writer E' (Ocf.newWriter E' L w)) ∧ o.err = none ∧
        o.vars = (bind ["writer".toList, "codec".toList, "recordsPerBlock".toList] [.other (.sink w), .other (.codec c), .other (.count k)] : Vars Y).set "str".toList (.value (fresh s)) := by
  constructor
  · intro h
    cases h with
    | new h1 h =>
      obtain ⟨-, rfl⟩ := h1
      cases h with
      | retWriter a1 a2 a3 g h =>
        rw [vars_other _ _ (by decide)] at a1 a2 a3
        cases a1; cases a2; cases a3
        cases g with
        | file g _ => rw [vars_self] at g; cases g
        | value g1 g2 =>
          obtain ⟨-, rfl⟩ := g2
          cases h
          exact ⟨_, rfl, rfl, rfl, rfl⟩
  · rintro ⟨E', rfl, h1, h2, h3⟩
    obtain ⟨res, er, vars⟩ := o
    cases h1; cases h2; cases h3
    refine .new ⟨rfl, rfl⟩ (.retWriter (L := Y) (oa := Thing.sink w) (ob := Thing.codec c) (oc := Thing.count k) ?_ ?_ ?_ (.value (v := fresh s) (vars_self ..) ⟨rfl, rfl⟩) .made)
    all_goals (rw [vars_other _ _ (by decide)]; rfl)

theorem newReader_iff {rd : R} {o : Ended Y} : Calls Y (newReaderFn name) [.reader (.inl rd)] o →
      (Ocf.NewReader σ rd none ∧ o.result = .nil ∧ o.err = some .file) ∨
      (∃ c e, Ocf.NewReader σ rd (some c) ∧ compileBytes read σ.ord c.schema schema = .error e ∧ o.result = .nil ∧ o.err = some e) ∨
      ∃ c p, Ocf.NewReader σ rd (some c) ∧ compileBytes read σ.ord c.schema schema = .ok p ∧ o.result = .both (.inr c) p ∧ o.err = none := by
  intro h
  cases h with
  | opened h1 h2 h =>
    cases h1
    cases h2 with
    | opened h2 =>
      cases h with
      | goOn h =>
        cases h with
        | new h3 h =>
          obtain ⟨-, rfl⟩ := h3
          have key : ∀ (S : Vars Y) {c : Ocf.Reader R}, S "containerReader".toList = some (.reader (.inr c)) → ∀ x, Gives S (.call "containerReader".toList "AvroContainerSchema".toList) x → x = c.schema := by
            intro S c hS x g
            cases g with
            | value g _ => rw [hS] at g; cases g
            | file g1 g2 =>
              rw [hS] at g1
              cases g1
              obtain ⟨-, c', e, rfl⟩ := g2
              cases e
              rfl
          cases h with
          | compiled g1 g2 hc h =>
            have e1 := key _ (by rw [vars_other _ _ (by decide), vars_self]) _ g1
            have e2 := (own_gives (v := fresh s) (vars_self ..) _).1 g2
            subst e1 e2
            cases h with
            | goOn h =>
              cases h with
              | retReader a1 a2 =>
                rw [vars_other _ _ (by decide), vars_other _ _ (by decide), vars_self] at a1
                rw [vars_self] at a2
                cases a1; cases a2
                exact .inr (.inr ⟨_, _, h2, hc, rfl, rfl⟩)
          | notCompiled g1 g2 hc h =>
            have e1 := key _ (by rw [vars_other _ _ (by decide), vars_self]) _ g1
            have e2 := (own_gives (v := fresh s) (vars_self ..) _).1 g2
            subst e1 e2
            cases h with
            | gaveUp h1 => cases h1; exact .inr (.inl ⟨_, _, h2, hc, rfl, rfl⟩)
  | notOpened h1 h2 h =>
    cases h1
    cases h2 with
    | failed h2 =>
      cases h with
      | gaveUp h1 => cases h1; exact .inl ⟨h2, rfl, rfl⟩

theorem newReader_runs {rd : R} {c : Ocf.Reader R} {p : Program} (h1 : Ocf.NewReader σ rd (some c)) (h2 : compileBytes read σ.ord c.schema schema = .ok p) :
    ∃ o, Calls Y (newReaderFn name) [.reader (.inl rd)] o ∧ o.result = .both (.inr c) p ∧ o.err = none := by
  refine ⟨⟨_, _, _⟩, .opened (L := Y) (r := Sum.inl rd) rfl (.opened h1) (.goOn (.new ⟨rfl, rfl⟩ (.compiled (.file (L := Y) (r := Sum.inr c) ?_ ⟨rfl, c, rfl, rfl⟩)
    (.value (v := fresh s) (vars_self ..) ⟨rfl, rfl⟩) h2 (.goOn (.retReader (L := Y) (r := Sum.inr c) (p := p) ?_ (vars_self ..)))))), rfl, rfl⟩
  · rw [vars_other _ _ (by decide), vars_self]
  · rw [vars_other _ _ (by decide), vars_other _ _ (by decide), vars_self]

theorem newReader_failed {rd : R} (h : Ocf.NewReader σ rd none) :
    ∃ o, Calls Y (newReaderFn name) [.reader (.inl rd)] o ∧ o.result = .nil ∧ o.err = some .file :=
  ⟨⟨_, _, _⟩, .notOpened (L := Y) (r := Sum.inl rd) rfl (.failed h) (.gaveUp rfl), rfl, rfl⟩

theorem newReader_refused {rd : R} {c : Ocf.Reader R} {e : EntryErr} (h1 : Ocf.NewReader σ rd (some c)) (h2 : compileBytes read σ.ord c.schema schema = .error e) :
    ∃ o, Calls Y (newReaderFn name) [.reader (.inl rd)] o ∧ o.result = .nil ∧ o.err = some e := by
  refine ⟨⟨_, _, _⟩, .opened (L := Y) (r := Sum.inl rd) rfl (.opened h1) (.goOn (.new ⟨rfl, rfl⟩ (.notCompiled (.file (L := Y) (r := Sum.inr c) ?_ ⟨rfl, c, rfl, rfl⟩)
    (.value (v := fresh s) (vars_self ..) ⟨rfl, rfl⟩) h2 (.gaveUp rfl)))), rfl, rfl⟩
  rw [vars_other _ _ (by decide), vars_self]

theorem readFn_iff {rd : R ⊕ Ocf.Reader R} {p : Program} {o : Ended Y} (hn : null = false) : Calls Y (readFn name) [.both rd p] o ↔
    ∃ t' r' er, EvalOn σ L s.env rd p (fresh s) t' r' er ∧
      o = ⟨.value t', er, (((bind ["r".toList] [.both rd p] : Vars Y).set "t".toList (.value (fresh s))).set "r".toList (.both r' p)).set "t".toList (.value t')⟩ := by
  constructor
  · intro h
    cases h with
    | new h1 h =>
      obtain ⟨-, rfl⟩ := h1
      cases h with
      | eval r1 p1 x1 _ e1 h =>
        cases r1 with
        | part r1 =>
          cases p1 with
          | part p1 =>
            rw [vars_other _ _ (by decide)] at r1 p1
            cases r1; cases p1
            rw [vars_self] at x1
            cases x1
            exact ⟨_, _, _, e1, (ends_iff (again := false) (vars_self ..)).1 h⟩
  · rintro ⟨t', r', er, h, rfl⟩
    have h3 : Spec.GoE.Reader (L := Y) ((bind ["r".toList] [.both rd p] : Vars Y).set "t".toList (.value (fresh s))) (.part "r".toList "r".toList) rd _ := .part (p := p) (by
      rw [vars_other _ _ (by decide)]; rfl)
    have h4 : Spec.GoE.Program (L := Y) ((bind ["r".toList] [.both rd p] : Vars Y).set "t".toList (.value (fresh s))) (.part "r".toList "p".toList) p := by
      refine Spec.GoE.Program.part (r := rd) (L := Y) ?_
      rw [vars_other _ _ (by decide)]; rfl
    exact .new ⟨rfl, rfl⟩ (.eval (L := Y) (r := rd) (p := p) (v := fresh s) (v' := t') (r' := r') (er := er) h3 h4 (vars_self ..)
      (by simp [entryLib, hn]) h ((ends_iff (again := false) (vars_self ..)).2 rfl))

end
end Verif
