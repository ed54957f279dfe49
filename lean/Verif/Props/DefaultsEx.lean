import Verif.Props.Defaults
import Verif.Props.WellCheck
import Verif.Props.Run
import Verif.Props.ResolutionEx
/-
That the theorems of Props/Defaults apply, and what generated code makes of other defaults.
-/
namespace Verif.Props
open Verif
set_option linter.unusedVariables false

/-! Checks for concrete schemas. -/

/-- `construct` gives this record. -/
def newB (nm : Namer) (env : Env) (n : Nat) (q : QName) (vs : List Val) : Bool :=
  match construct nm env n (.ref q) with
  | .ok v => valEq v (.record vs)
  | .error _ => false

theorem new_of {nm : Namer} {env : Env} (n : Nat) {q : QName} {vs : List Val} (h : newB nm env n q vs = true) :
    New nm env q vs := by
  unfold newB at h
  split at h
  · rename_i v hv
    exact ⟨n, by rw [hv, valEq_eq h]⟩
  · cases h

/-- The constructor fails in this way. -/
def newErr (nm : Namer) (env : Env) (n : Nat) (q : QName) (e : DefErr) : Bool :=
  match construct nm env n (.ref q) with
  | .ok _ => false
  | .error e' => decide (e' = e)

theorem newErr_of {nm : Namer} {env : Env} {n : Nat} {q : QName} {e : DefErr} (h : newErr nm env n q e = true) :
    construct nm env n (.ref q) = .error e := by
  unfold newErr at h
  split at h
  · cases h
  · rename_i e' he
    rw [he, of_decide_eq_true h]

def returnsB (nm : Namer) (env : Env) (n : Nat) : Bool :=
  env.all fun x => match x.2.kind with
    | .record _ => match construct nm env n (.ref x.1) with
      | .ok _ => true
      | .error _ => false
    | _ => true

theorem returns_of {nm : Namer} {env : Env} (n : Nat) (h : returnsB nm env n = true) : ConstructorsReturn nm env := by
  intro q d fs hq hk
  unfold returnsB at h
  rw [List.all_eq_true] at h
  have := h _ (Env.find_mem hq)
  dsimp only at this
  rw [hk] at this
  dsimp only at this
  split at this
  · rename_i v hv; exact ⟨n, v, hv⟩
  · cases this

def enumsB (nm : Namer) (env : Env) : Bool :=
  env.all fun x => match x.2.kind with
    | .enum syms _ => decide (syms.map (symbolGoName nm (nm.publicName x.2.name.str))).Nodup
    | _ => true

theorem enums_of {nm : Namer} {env : Env} (h : enumsB nm env = true) : EnumsCompile nm env := by
  intro q d syms e hq hk
  unfold enumsB at h
  rw [List.all_eq_true] at h
  have := h _ (Env.find_mem hq)
  dsimp only at this
  rw [hk] at this
  exact of_decide_eq_true this

/-! A schema with a default for every kind of type. -/

def qD : QName := ⟨"ex".toList, "D".toList⟩
def qDE : QName := ⟨"ex".toList, "Suit".toList⟩
def qDF : QName := ⟨"ex".toList, "Two".toList⟩
def qDP : QName := ⟨"ex".toList, "P".toList⟩
def fldD (n : String) (t : Ty) (j : Json) : Field := { name := n.toList, ty := t, dflt := some j }

/-- 0.1 -/
def tenth : Json := .real 0x3FB999999999999A

def dPart : List Field := [fldD "p" .int (.num 3), { name := "q".toList, ty := .string }]
def dFields : List Field :=
  [fldD "b" .bool (.bool true),
   fldD "i" .int (.num (-7)),
   fldD "l" .long (.num (2 ^ 52)),
   fldD "x" .double tenth,
   fldD "g" .float tenth,
   fldD "y" .bytes (.str [Char.ofNat 255, Char.ofNat 0]),
   fldD "s" .string (.str ['é']),
   fldD "e" (.ref qDE) (.str "B".toList),
   fldD "f" (.ref qDF) (.str "ab".toList),
   fldD "a" (.array (.union [.int, .string])) (.arr [.num 1, .num 2]),
   fldD "m" (.map (.array .bool)) (.obj [("k".toList, .arr [.bool true]), ("j".toList, .arr [])]),
   fldD "u" (.union [.null, .string]) .null,
   fldD "v" (.union [.string, .null]) (.str "q".toList),
   fldD "r" (.ref qDP) (.obj [("q".toList, .str "z".toList)]),
   { name := "z".toList, ty := .long }]
def dEnv : Env :=
  [(qD, { name := qD, kind := .record dFields }),
   (qDE, { name := qDE, kind := .enum ["A".toList, "B".toList] [] }),
   (qDF, { name := qDF, kind := .fixed 2 }),
   (qDP, { name := qDP, kind := .record dPart })]
def dVals : List Val :=
  [.bool true, .int (BitVec.ofInt 32 (-7)), .long (2 ^ 52), .double 0x3FB999999999999A, .float 0x3DCCCCCD,
   .bytes [255, 0], .string [0xC3, 0xA9], .enum 1, .fixed [97, 98],
   .array [.union 0 (some (.int 1)), .union 0 (some (.int 2))],
   .map [(txt "j", .array []), (txt "k", .array [.bool true])], .nil, .union 0 (some (.string (txt "q"))),
   .record [.int 3, .string (txt "z")], .long 0]

theorem dEnv_apart : FieldsApart dEnv := (wellFormed_of (s := ⟨dEnv, .ref qD⟩) (fun q => if q = qD then 1 else 0) (by decide +kernel)).apart
theorem dEnv_enums : EnumsCompile .simple dEnv := enums_of (by decide +kernel)
theorem dEnv_returns : ConstructorsReturn .simple dEnv := returns_of 5 (by decide +kernel)
theorem dEnv_new : New .simple dEnv qD dVals := new_of 5 (by decide +kernel)

theorem real_number {b : BitVec 64} (h : double.low b / 2 ^ double.p < 2 ^ double.k - 1) :
    (Json.real b).number = some (double.scaled b, 2 ^ double.scale) := by
  simp only [Json.number, if_pos h]

theorem tenth_number : tenth.number = some (double.scaled 0x3FB999999999999A, 2 ^ double.scale) :=
  real_number (by decide)

theorem some_toNat {F : Fmt} {x : Option (BitVec F.width)} {b : BitVec F.width}
    (h : x.map BitVec.toNat = some b.toNat) : x = some b := by
  cases x with
  | none => cases h
  | some c => rw [BitVec.eq_of_toNat_eq (Option.some.inj h)]

theorem tenth_double : double.Near (double.scaled 0x3FB999999999999A) (2 ^ double.scale) (0x3FB999999999999A : BitVec 64) :=
  constFloat_near double (by decide) (by decide) (Nat.two_pow_pos _) (some_toNat (by decide +kernel))
theorem tenth_single : single.Near (double.scaled 0x3FB999999999999A) (2 ^ double.scale) (0x3DCCCCCD : BitVec 32) :=
  constFloat_near single (by decide) (by decide) (Nat.two_pow_pos _) (some_toNat (by decide +kernel))
theorem tenth_settles : Settles double single 0x3FB999999999999A 0x3DCCCCCD := by decide +kernel

/-- All these defaults meet the conditions; so their values are in the record that `NewD()` returns. -/
theorem dEnv_means (i : Nat) (f : Field) (j : Json) (v : Val) (hf : dFields[i]? = some f) (hj : f.dflt = some j)
    (hv : dVals[i]? = some v) : DefaultMeans dEnv true j f.ty v := by
  match i with
  | 0 => cases hf; cases hj; cases hv; exact .bool
  | 1 => cases hf; cases hj; cases hv; exact .int (by decide) (by decide)
  | 2 => cases hf; cases hj; cases hv; exact .long (z := 2 ^ 52) (by decide) (by decide) (fun _ => by decide)
  | 3 => cases hf; cases hj; cases hv; exact .double tenth_number tenth_double
  | 4 =>
    cases hf; cases hj; cases hv
    refine .float tenth_number tenth_single fun _ => ⟨_, tenth_double, fun a' d' hd h => ?_⟩
    exact settled (F := double) (G := single) (neg := false) (by decide) (by decide) (by decide) (by decide)
      tenth_settles hd h
  | 5 => cases hf; cases hj; cases hv; exact .bytes (s := [Char.ofNat 255, Char.ofNat 0]) (by decide)
  | 6 => cases hf; cases hj; cases hv; exact .string (s := ['é'])
  | 7 => cases hf; cases hj; cases hv; exact .enum (q := qDE) (i := 1) rfl rfl rfl
  | 8 =>
    cases hf; cases hj; cases hv
    exact .fixed (q := qDF) (s := "ab".toList) rfl rfl (by decide) (by decide) (fun _ => by decide)
  | 9 =>
    cases hf; cases hj; cases hv
    refine .array (t := .union [.int, .string]) rfl fun i j v hj hv => ?_
    match i with
    | 0 => cases hj; cases hv; exact .union rfl nofun (.int (z := 1) (by decide) (by decide))
    | 1 => cases hj; cases hv; exact .union rfl nofun (.int (z := 2) (by decide) (by decide))
    | n + 2 => cases hj
  | 10 =>
    cases hf; cases hj; cases hv
    refine .map (t := .array .bool) (kvs := [("k".toList, .arr [.bool true]), ("j".toList, .arr [])])
      (vs := [.array [.bool true], .array []]) (by decide) rfl (fun i j v hj hv => ?_) (fun _ => .array)
    match i with
    | 0 =>
      cases hj; cases hv
      refine .array (t := .bool) rfl fun i j v hj hv => ?_
      match i with
      | 0 => cases hj; cases hv; exact .bool
      | n + 1 => cases hj
    | 1 => cases hj; cases hv; exact .array (t := .bool) rfl nofun
    | n + 2 => cases hj
  | 11 => cases hf; cases hj; cases hv; exact .unionNull rfl
  | 12 => cases hf; cases hj; cases hv; exact .union rfl nofun (.string (s := "q".toList))
  | 13 =>
    cases hf; cases hj; cases hv
    refine .record (q := qDP) (fs := dPart) rfl rfl (by decide) (fun kv h => ?_) rfl (fun f h => ?_)
      (fun i f v j hf hv hj => ?_) (fun _ f h => ?_)
    · rcases List.mem_cons.1 h with rfl | h
      · exact ⟨_, List.mem_cons_of_mem _ (List.mem_cons_self ..), rfl⟩
      · cases h
    · rcases List.mem_cons.1 h with rfl | h
      · rfl
      · rcases List.mem_cons.1 h with rfl | h
        · rfl
        · cases h
    · match i with
      | 0 => cases hf; cases hv; cases hj; exact .int (z := 3) (by decide) (by decide)
      | 1 => cases hf; cases hv; cases hj; exact .string (s := "z".toList)
      | n + 2 => cases hf
    · rcases List.mem_cons.1 h with rfl | h
      · intro h; cases h
      · rcases List.mem_cons.1 h with rfl | h
        · intro _ h; cases h
        · cases h
  | 14 => cases hf; cases hj
  | n + 15 => cases hf

example : ∃ vs, New .simple dEnv qD vs ∧ vs.length = dFields.length ∧
    ∀ (i : Nat) f j v, dFields[i]? = some f → f.dflt = some j → DefaultMeans dEnv true j f.ty v → vs[i]? = some v :=
  new_default_partial dEnv_enums dEnv_apart dEnv_returns (d := { name := qD, kind := .record dFields }) rfl rfl
example : SetsDefault .simple dEnv dFields dVals 10 dVals :=
  set_default_partial dEnv_enums dEnv_apart dEnv_returns (i := 10) rfl rfl (dEnv_means 10 _ _ _ rfl rfl rfl) rfl

example : SetsDefault .simple dEnv dFields (dVals.set 3 (.double 0)) 3 dVals := by
  have := set_default_any_partial (fs := dFields) (vs := dVals.set 3 (.double 0)) dEnv_enums dEnv_apart dEnv_returns (i := 3) rfl rfl
    (dEnv_means 3 _ _ _ rfl rfl rfl) .double rfl
  exact this

/-! Reading data without the field. -/

def defaultsOfB (nm : Namer) (env : Env) (dv : Field → Val) (n : Nat) : Bool :=
  env.all fun x => match x.2.kind with
    | .record fs => match construct nm env n (.ref x.1) with
      | .ok (.record vs) => (List.range fs.length).all fun i => match fs[i]? with
        | none => true
        | some f => !f.dflt.isSome || match setDefaultOf nm env n fs vs i with
          | .ok vs' => match vs'[i]? with
            | some v => valEq v (dv f)
            | none => false
          | .error _ => false
      | _ => false
    | _ => true

theorem setDefaultOf_mono {nm : Namer} {env : Env} {n m : Nat} {fs : List Field} {vs vs' : List Val} {i : Nat}
    (h : setDefaultOf nm env n fs vs i = .ok vs') (hm : n ≤ m) : setDefaultOf nm env m fs vs i = .ok vs' := by
  unfold setDefaultOf at h ⊢
  split
  · rename_i he; rw [he] at h; exact h
  · rename_i f he
    rw [he] at h
    dsimp only at h
    split
    · rename_i hd; rw [hd] at h; exact h
    · rename_i j hd
      rw [hd] at h
      dsimp only at h
      obtain ⟨v, e1, e2⟩ := bind_ok h
      obtain ⟨o, e0, e3⟩ := bind_ok e1
      obtain ⟨o', e4, e5⟩ := bind_ok e3
      have : onField (applyDefault nm env m j f.ty true) vs[i]? = .ok v := by
        show (present vs[i]? >>= _) = _
        rw [ok_bind e0]; show (applyDefault nm env m j f.ty true (some o) >>= present) = _
        rw [ok_bind (apply_mono e4 hm), e5]
      rw [ok_bind this]
      exact e2

theorem defaultsOf_of {nm : Namer} {env : Env} {dv : Field → Val} (n : Nat) (h : defaultsOfB nm env dv n = true) :
    DefaultsOf nm env dv := by
  intro q d fs i f vs vs' hq hk hi hd hn hs
  unfold defaultsOfB at h
  rw [List.all_eq_true] at h
  have := h _ (Env.find_mem hq)
  dsimp only at this
  rw [hk] at this
  dsimp only at this
  split at this
  · rename_i ns hns
    have e : ns = vs := New.same ⟨n, hns⟩ hn
    subst e
    rw [List.all_eq_true] at this
    have := this i (List.mem_range.2 (List.getElem?_eq_some_iff.1 hi).1)
    rw [hi] at this
    simp only [hd, Bool.not_true, Bool.false_or] at this
    split at this
    · rename_i vs2 h2
      obtain ⟨m, hs⟩ := hs
      have a1 := setDefaultOf_mono h2 (Nat.le_max_left n m)
      rw [setDefaultOf_mono hs (Nat.le_max_right n m)] at a1
      cases a1
      split at this
      · rename_i v hv; rw [hv, valEq_eq this]
      · cases this
    · cases this
  · cases this

/-- The reader's field `x`, which the writer does not have, is 7. -/
example : ∃ vs, wideVal = .record vs ∧ vs[9]? = some (.int 7) := by
  obtain ⟨_, h⟩ := wide_value
  have hA : FieldsApart wideR.env :=
    (wellFormed_of (s := wideR) (fun q => if q = qP then 1 else 0) (by decide +kernel)).apart
  obtain ⟨wd, rrd, wfs, rfs, vs, h1, h2, h3, h4, h5, h6⟩ := missing_field_default_partial (nm := .simple)
    (enums_of (by decide +kernel)) hA (returns_of 5 (by decide +kernel)) (defaultsOf_of 5 (by decide +kernel))
    wide_reading h (p := []) .here
  cases h1; cases h2; cases h3; cases h4
  refine ⟨vs, by simpa [Val.at] using h5, h6 9 _ _ _ rfl ?_ rfl (.int (z := 7) (by decide) (by decide))⟩
  have : (wideFields.all fun wf => decide ¬("x".toList = wf.name ∨ wf.name ∈ ([] : List Str))) = true := by decide +kernel
  rw [List.all_eq_true] at this
  intro wf hwf
  have := of_decide_eq_true (this wf hwf)
  exact this

/-! ### Where the defaults are not those of the schema -/

/-- A record `D` with one field, and other definitions. -/
def oneEnv (t : Ty) (j : Json) (ds : List (QName × DefKind) := []) : Env :=
  (qD, { name := qD, kind := .record [fldD "x" t j] }) :: ds.map fun x => (x.1, { name := x.1, kind := x.2 })

/-- The constructor, given fuel enough, does not return a record. -/
theorem no_new {nm : Namer} {env : Env} {q : QName} {e : DefErr} {k : Nat}
    (h : ∀ n, construct nm env (n + k) (.ref q) = .error e) (vs : List Val) : ¬New nm env q vs := by
  rintro ⟨n, hn⟩
  have := construct_mono hn (Nat.le_add_right n k)
  rw [h n] at this
  cases this

theorem not_right {t : Ty} {j : Json} {ds : List (QName × DefKind)} {v v' : Val} (hv : DefaultMeans (oneEnv t j ds) false j t v)
    (h : New .simple (oneEnv t j ds) qD [v']) (hne : valEq v v' = false) (href : valEq v v = true) :
    ¬DefaultsRight .simple (oneEnv t j ds) := by
  intro hr
  obtain ⟨vs, h1, h2⟩ := hr qD { name := qD, kind := .record [fldD "x" t j] } _ 0 (fldD "x" t j) j v rfl rfl rfl rfl hv
  have := New.same h1 h
  subst this
  cases h2
  rw [href] at hne
  cases hne

/-- C69 fails: a default of type long beyond 2^53 is not exact: 2^56 becomes 72057594037927940. -/
theorem long_default_inexact :
    DefaultMeans (oneEnv .long (.num (2 ^ 56))) false (.num (2 ^ 56)) .long (.long (2 ^ 56)) ∧
    New .simple (oneEnv .long (.num (2 ^ 56))) qD [.long 72057594037927940] ∧
    ¬DefaultsRight .simple (oneEnv .long (.num (2 ^ 56))) := by
  have h1 : DefaultMeans (oneEnv .long (.num (2 ^ 56))) false (.num (2 ^ 56)) .long (.long (2 ^ 56)) :=
    .long (z := 2 ^ 56) (by decide) (by decide) nofun
  have h2 : New .simple (oneEnv .long (.num (2 ^ 56))) qD [.long 72057594037927940] := new_of 5 (by decide +kernel)
  exact ⟨h1, h2, not_right h1 h2 (by decide +kernel) (by decide +kernel)⟩

/-- 1 + 2^-24, half-way between two floats -/
def halfway : Json := .real 0x3FF0000010000000

/-- C69 fails: a float is rounded twice, by way of the decimal in the source: 1 + 2^-24 becomes 1 + 2^-23, not 1. -/
theorem float_default_inexact :
    DefaultMeans (oneEnv .float halfway) false halfway .float (.float 0x3F800000) ∧
    New .simple (oneEnv .float halfway) qD [.float 0x3F800001] ∧
    ¬DefaultsRight .simple (oneEnv .float halfway) := by
  have h1 : DefaultMeans (oneEnv .float halfway) false halfway .float (.float 0x3F800000) :=
    .float (real_number (by decide)) (constFloat_near single (by decide) (by decide) (Nat.two_pow_pos _)
      (some_toNat (by decide +kernel))) nofun
  have h2 : New .simple (oneEnv .float halfway) qD [.float 0x3F800001] := new_of 5 (by decide +kernel)
  exact ⟨h1, h2, not_right h1 h2 (by decide +kernel) (by decide +kernel)⟩

def yuml : Json := .str [Char.ofNat 255]
def fixedEnv : Env := oneEnv (.ref qDF) yuml [(qDF, .fixed 1)]

/-- C69 fails: a byte above 127 in the default of a fixed becomes two, of which the first is kept. -/
theorem fixed_default_wrong :
    DefaultMeans fixedEnv false yuml (.ref qDF) (.fixed [0xFF]) ∧ New .simple fixedEnv qD [.fixed [0xC3]] ∧
    ¬DefaultsRight .simple fixedEnv := by
  have h1 : DefaultMeans fixedEnv false yuml (.ref qDF) (.fixed [0xFF]) :=
    .fixed (q := qDF) (n := 1) (s := [Char.ofNat 255]) rfl rfl (by decide) (by decide) nofun
  have h2 : New .simple fixedEnv qD [.fixed [0xC3]] := new_of 5 (by decide +kernel)
  exact ⟨h1, h2, not_right h1 h2 (by decide +kernel) (by decide +kernel)⟩

/-- A map with one entry `k`. -/
def mapD (j : Json) : Json := .obj [("k".toList, j)]

theorem mapD_means {env : Env} {j : Json} {t : Ty} {v : Val} (h : DefaultMeans env false j t v) :
    DefaultMeans env false (mapD j) (.map t) (.map [(txt "k", v)]) := by
  refine .map (kvs := [("k".toList, j)]) (vs := [v]) (by simp) rfl (fun i kv v hk hv => ?_) nofun
  match i with
  | 0 => cases hk; cases hv; exact h
  | n + 1 => cases hk

/-- C69 fails: the code for a default of type map of fixeds does not compile. -/
theorem map_of_fixed_default_refused :
    (∃ v, DefaultMeans (oneEnv (.map (.ref qDF)) (mapD (.str ['a'])) [(qDF, .fixed 1)]) false (mapD (.str ['a']))
      (.map (.ref qDF)) v) ∧
    ∀ n, construct .simple (oneEnv (.map (.ref qDF)) (mapD (.str ['a'])) [(qDF, .fixed 1)]) (n + 5) (.ref qD) =
      .error .build :=
  ⟨⟨_, mapD_means (.fixed (q := qDF) (n := 1) (s := ['a']) rfl rfl (by decide) (by decide) nofun)⟩,
    fun n => by with_unfolding_all rfl⟩

/-- C69 fails: nor does that for a map of unions without null. -/
theorem map_of_union_default_refused :
    (∃ v, DefaultMeans (oneEnv (.map (.union [.int, .string])) (mapD (.num 1))) false (mapD (.num 1))
      (.map (.union [.int, .string])) v) ∧
    ∀ n, construct .simple (oneEnv (.map (.union [.int, .string])) (mapD (.num 1))) (n + 5) (.ref qD) = .error .build :=
  ⟨⟨_, mapD_means (.union rfl nofun (.int (z := 1) (by decide) (by decide)))⟩,
    fun n => by with_unfolding_all rfl⟩

/-- C69 fails: the constructor panics when a default is a map of maps. -/
theorem map_of_map_default_panics :
    (∃ v, DefaultMeans (oneEnv (.map (.map .bool)) (mapD (mapD (.bool true)))) false (mapD (mapD (.bool true)))
      (.map (.map .bool)) v) ∧
    ∀ n, construct .simple (oneEnv (.map (.map .bool)) (mapD (mapD (.bool true)))) (n + 5) (.ref qD) = .error .panic :=
  ⟨⟨_, mapD_means (mapD_means .bool)⟩, fun n => by with_unfolding_all rfl⟩

def lostEnv : Env := oneEnv (.map (.ref qDP)) (mapD (.obj [])) [(qDP, .record [fldD "p" .bool (.bool true)])]

/-- C69 fails: entries of a map whose items are records with nothing but defaults are left out. -/
theorem map_of_record_default_lost :
    DefaultMeans lostEnv false (mapD (.obj [])) (.map (.ref qDP)) (.map [(txt "k", .record [.bool true])]) ∧
    New .simple lostEnv qD [.map []] ∧ ¬DefaultsRight .simple lostEnv := by
  have h1 : DefaultMeans lostEnv false (mapD (.obj [])) (.map (.ref qDP)) (.map [(txt "k", .record [.bool true])]) := by
    refine mapD_means (.record (fs := [fldD "p" .bool (.bool true)]) rfl rfl List.nodup_nil nofun rfl (fun f h => ?_)
      (fun i f v j hf hv hj => ?_) nofun)
    · rcases List.mem_cons.1 h with rfl | h
      · rfl
      · cases h
    · match i with
      | 0 => cases hf; cases hv; cases hj; exact .bool
      | n + 1 => cases hf
  have h2 : New .simple lostEnv qD [.map []] := new_of 5 (by decide +kernel)
  exact ⟨h1, h2, not_right h1 h2 (by decide +kernel) (by decide +kernel)⟩

def kv (k : String) (j : Json) : Json := .obj [(k.toList, j)]
def innerMap : Field := fldD "n" (.map .bool) (kv "a" (.bool true))
def mergeEnv : Env := oneEnv (.ref qDP) (kv "n" (kv "b" (.bool false))) [(qDP, .record [innerMap])]

/-- C69 fails: a map within a record default is added to the map's own default. -/
theorem nested_map_default_merged :
    DefaultMeans mergeEnv false (kv "n" (kv "b" (.bool false))) (.ref qDP) (.record [.map [(txt "b", .bool false)]]) ∧
    New .simple mergeEnv qD [.record [.map [(txt "a", .bool true), (txt "b", .bool false)]]] ∧
    ¬DefaultsRight .simple mergeEnv := by
  have h1 : DefaultMeans mergeEnv false (kv "n" (kv "b" (.bool false))) (.ref qDP)
      (.record [.map [(txt "b", .bool false)]]) := by
    refine .record (fs := [innerMap]) rfl rfl (by decide) (fun x h => ?_) rfl (fun f h => ?_)
      (fun i f v j hf hv hj => ?_) nofun
    · rcases List.mem_cons.1 h with rfl | h
      · exact ⟨_, List.mem_cons_self .., rfl⟩
      · cases h
    · rcases List.mem_cons.1 h with rfl | h
      · rfl
      · cases h
    · match i with
      | 0 =>
        cases hf; cases hv; cases hj
        refine .map (t := .bool) (kvs := [("b".toList, .bool false)]) (vs := [.bool false]) (by decide) rfl
          (fun i kv v hk hv => ?_) nofun
        match i with
        | 0 => cases hk; cases hv; exact .bool
        | n + 1 => cases hk
      | n + 1 => cases hf
  have h2 : New .simple mergeEnv qD [.record [.map [(txt "a", .bool true), (txt "b", .bool false)]]] :=
    new_of 5 (by decide +kernel)
  exact ⟨h1, h2, not_right h1 h2 (by decide +kernel) (by decide +kernel)⟩

def selfFields : List Field := [fldD "x" (.array (.ref qD)) (.arr [kv "x" (.arr [])])]
def selfEnv : Env := oneEnv (.array (.ref qD)) (.arr [kv "x" (.arr [])])

theorem self_deep : ∀ n, construct .simple selfEnv n (.ref qD) = .error .deep := by
  have key : ∀ n, construct .simple selfEnv n (.ref qD) = .error .deep ∧
      construct .simple selfEnv (n + 1) (.ref qD) = .error .deep := by
    intro n
    induction n with
    | zero => exact ⟨by with_unfolding_all rfl, by with_unfolding_all rfl⟩
    | succ n ih =>
      refine ⟨ih.2, ?_⟩
      have hf : selfEnv.find qD = some { name := qD, kind := .record selfFields } := rfl
      simp only [construct, hf]
      unfold selfFields newFields fldD freshField fieldDefault kv
      simp only [Ty.nullFirst, Bool.false_eq_true, if_false, construct, applyDefault]
      simp only [applyItems, ih.1]
      rfl
  exact fun n => (key n).1

/-- C69 fails: a constructor that makes values of its own type for its default does not return. -/
theorem recursive_default_diverges :
    (∃ v, DefaultMeans selfEnv false (.arr [kv "x" (.arr [])]) (.array (.ref qD)) v) ∧
    (∀ n, construct .simple selfEnv n (.ref qD) = .error .deep) ∧ ∀ vs, ¬New .simple selfEnv qD vs := by
  refine ⟨⟨.array [.record [.array []]], ?_⟩, self_deep, no_new (k := 0) self_deep⟩
  refine .array rfl fun i j v hj hv => ?_
  match i with
  | n + 1 => cases hj
  | 0 =>
    cases hj; cases hv
    refine .record (fs := selfFields) rfl rfl (by decide) (fun x h => ?_) rfl (fun f h => ?_)
      (fun i f v j hf hv hj => ?_) nofun
    · rcases List.mem_cons.1 h with rfl | h
      · exact ⟨_, List.mem_cons_self .., rfl⟩
      · cases h
    · rcases List.mem_cons.1 h with rfl | h
      · rfl
      · cases h
    · match i with
      | 0 => cases hf; cases hv; cases hj; exact .array rfl nofun
      | n + 1 => cases hf

end Verif.Props
