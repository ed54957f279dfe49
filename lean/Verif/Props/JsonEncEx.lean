import Verif.Props.JsonEnc
import Verif.Props.DefaultsEx
/-
Cases of C70 - C74: that the hypotheses are met, and what happens where they are not.
-/
namespace Verif.Props
open Verif

variable {nm : Namer} {env : Env}

/-! Decision procedures for the concrete cases -/

mutual
/-- Equality of trees. -/
def treeEq : JTree → JTree → Bool
  | .null, .null => true
  | .bool a, .bool b => a == b
  | .num (.int s n), .num (.int s' n') => s == s' && n == n'
  | .num (.frac s n d), .num (.frac s' n' d') => s == s' && n == n' && d == d'
  | .str a, .str b => decide (a = b)
  | .arr a, .arr b => treesEq a b
  | .obj a, .obj b => keyedEq a b
  | _, _ => false
def treesEq : List JTree → List JTree → Bool
  | [], [] => true
  | a :: as, b :: bs => treeEq a b && treesEq as bs
  | _, _ => false
def keyedEq : List (Str × JTree) → List (Str × JTree) → Bool
  | [], [] => true
  | (k, a) :: as, (k', b) :: bs => decide (k = k') && (treeEq a b && keyedEq as bs)
  | _, _ => false
end

mutual
theorem treeEq_eq : ∀ {a b : JTree}, treeEq a b = true → a = b
  | .null, b, h => by cases b <;> simp_all [treeEq]
  | .bool x, b, h => by cases b <;> simp_all [treeEq]
  | .num (.int s n), b, h => by
    cases b with
    | num y => cases y <;> simp_all [treeEq]
    | _ => simp [treeEq] at h
  | .num (.frac s n d), b, h => by
    cases b with
    | num y => cases y <;> simp_all [treeEq]
    | _ => simp [treeEq] at h
  | .str x, b, h => by cases b <;> simp_all [treeEq]
  | .arr x, b, h => by
    cases b with
    | arr y => rw [treesEq_eq (a := x) (b := y) (by simpa [treeEq] using h)]
    | _ => simp [treeEq] at h
  | .obj x, b, h => by
    cases b with
    | obj y => rw [keyedEq_eq (a := x) (b := y) (by simpa [treeEq] using h)]
    | _ => simp [treeEq] at h
theorem treesEq_eq : ∀ {a b : List JTree}, treesEq a b = true → a = b
  | [], b, h => by cases b <;> simp_all [treesEq]
  | x :: xs, b, h => by
    cases b with
    | nil => simp [treesEq] at h
    | cons y ys =>
      simp only [treesEq, Bool.and_eq_true] at h
      rw [treeEq_eq h.1, treesEq_eq h.2]
theorem keyedEq_eq : ∀ {a b : List (Str × JTree)}, keyedEq a b = true → a = b
  | [], b, h => by cases b <;> simp_all [keyedEq]
  | (k, x) :: xs, b, h => by
    cases b with
    | nil => simp [keyedEq] at h
    | cons y ys =>
      obtain ⟨k', y⟩ := y
      simp only [keyedEq, Bool.and_eq_true, decide_eq_true_eq] at h
      rw [h.1, treeEq_eq h.2.1, keyedEq_eq h.2.2]
end

def marshalsB (env : Env) (t : Ty) (v : Val) (j : JTree) : Bool :=
  match jsonEncode env v t with
  | .ok j' => treeEq j' j
  | _ => false

theorem marshals_of {t : Ty} {v : Val} {j : JTree} (h : marshalsB env t v j = true) : Marshals env t v j := by
  unfold marshalsB at h
  split at h
  · rename_i e; rw [Marshals, e, treeEq_eq h]
  · cases h

/-- The names of the members are there and different. -/
def unionNamesB (env : Env) (ts : List Ty) : Bool :=
  decide ((ts.map (unionKey env)).Nodup) && ts.all fun t => (unionKey env t).isSome

theorem unionNames_of {ts : List Ty} (h : unionNamesB env ts = true) : UnionNames env ts := by
  simp only [unionNamesB, Bool.and_eq_true, decide_eq_true_eq, List.all_eq_true] at h
  refine ⟨fun t ht => ?_, fun i i' t t' k hi hi' hk hk' => ?_⟩
  · obtain ⟨k, e⟩ := Option.isSome_iff_exists.1 (h.2 t ht)
    exact ⟨k, jsonName_iff.2 e⟩
  · have e1 : (ts.map (unionKey env))[i]? = some (some k) := by
      rw [List.getElem?_map, hi]; exact congrArg some (jsonName_iff.1 hk)
    have e2 : (ts.map (unionKey env))[i']? = some (some k) := by
      rw [List.getElem?_map, hi']; exact congrArg some (jsonName_iff.1 hk')
    have hlt : i < (ts.map (unionKey env)).length := by
      rw [List.getElem?_eq_some_iff] at e1; exact e1.1
    exact (List.getElem?_inj hlt h.1).1 (e1.trans e2.symm)

mutual
def namedB (env : Env) : Ty → Bool
  | .array t => namedB env t
  | .map t => namedB env t
  | .union ts => unionNamesB env ts && allNamedB env ts
  | _ => true
def allNamedB (env : Env) : List Ty → Bool
  | [] => true
  | t :: ts => namedB env t && allNamedB env ts
end

mutual
theorem named_of : ∀ {t : Ty}, namedB env t = true → t.Named env
  | .array t, h => by simp only [namedB] at h; exact named_of (t := t) h
  | .map t, h => by simp only [namedB] at h; exact named_of (t := t) h
  | .union ts, h => by
    simp only [namedB, Bool.and_eq_true] at h
    exact ⟨unionNames_of h.1, allNamed_of h.2⟩
  | .null, _ => trivial
  | .bool, _ => trivial
  | .int, _ => trivial
  | .long, _ => trivial
  | .float, _ => trivial
  | .double, _ => trivial
  | .bytes, _ => trivial
  | .string, _ => trivial
  | .ref _, _ => trivial
theorem allNamed_of : ∀ {ts : List Ty}, allNamedB env ts = true → Ty.AllNamed env ts
  | [], _ => trivial
  | t :: ts, h => by
    simp only [allNamedB, Bool.and_eq_true] at h
    exact ⟨named_of h.1, allNamed_of h.2⟩
end

/-- `JsonSound`. -/
def soundB (env : Env) : Bool :=
  env.all fun e => match e.2.kind with
    | .record fs => decide ((fs.map Field.name).Nodup) && fs.all fun f => namedB env f.ty
    | .enum ss _ => decide ss.Nodup
    | .fixed _ => true

theorem sound_of (h : soundB env = true) : JsonSound env := by
  simp only [soundB, List.all_eq_true] at h
  constructor
  · intro q d ss e hq hk
    have := h _ (Env.find_mem hq)
    simp only [hk, decide_eq_true_eq] at this
    exact this
  · intro q d fs hq hk
    have := h _ (Env.find_mem hq)
    simp only [hk, Bool.and_eq_true, decide_eq_true_eq] at this
    exact this.1
  · intro q d fs f hq hk hf
    have := h _ (Env.find_mem hq)
    simp only [hk, Bool.and_eq_true, List.all_eq_true] at this
    exact named_of (this.2 f hf)

/-! A record with floats, bytes, an array of unions and a map -/

def qJ : QName := ⟨"ex".toList, "J".toList⟩
def jFields : List Field :=
  [{ name := "y".toList, ty := .double },
   { name := "x".toList, ty := .float },
   { name := "b".toList, ty := .bytes },
   { name := "us".toList, ty := .array (.union [.int, .null, .ref qJ]) },
   { name := "m".toList, ty := .map .string }]
def jEnv : Env := [(qJ, { name := qJ, kind := .record jFields })]
def jLeaf : Val := .record [.double 0x8000000000000000, .float 0x4F800000, .bytes [], .array [], .map []]
def jVal : Val := .record [.double 0x3FB999999999999A, .float 0xBDCCCCCD, .bytes [0, 255],
  .array [.union 0 (some (.int (BitVec.ofInt 32 (-3)))), .nil, .union 2 (some jLeaf)],
  .map [(txt "k", .string [0xC3, 0xA9])]]

def js (s : String) : JTree := .str s.toList
def jn (z : Int) : JTree := .num (intNum z)
def jo (kvs : List (String × JTree)) : JTree := .obj (kvs.map fun kv => (kv.1.toList, kv.2))

/-- `{"b":"","m":{},"us":[],"x":4294967300,"y":-0}`: four thousand million and so on is the shortest text of 2^32 -/
def jLeafTree : JTree := jo [("b", js ""), ("m", jo []), ("us", .arr []), ("x", jn 4294967300), ("y", .num (.int true 0))]
/-- `{"b":"\u0000ÿ","m":{"k":"é"},"us":[{"int":-3},null,{"ex.J":{...}}],"x":-0.1,"y":0.1}` -/
def jTree : JTree := jo [("b", .str [Char.ofNat 0, Char.ofNat 255]), ("m", jo [("k", js "é")]),
  ("us", .arr [jo [("int", jn (-3))], .null, jo [("ex.J", jLeafTree)]]),
  ("x", .num (.frac true 1 10)), ("y", .num (.frac false 1 10))]

theorem jEnv_sound : JsonSound jEnv := sound_of (by decide +kernel)

theorem jVal_writes : Marshals jEnv (.ref qJ) jVal jTree := marshals_of (by decide +kernel)

theorem jLeaf_hasTy : HasTy jEnv 1000 jLeaf (.ref qJ) := by
  refine ⟨_, _, jFields, rfl, rfl, rfl, ?_⟩
  exact ⟨_, _, rfl, rfl, _, _, rfl, rfl, _, _, rfl, ⟨rfl, by decide⟩, _, _, rfl, ⟨_, rfl, by decide, trivial⟩, _, _, rfl,
    ⟨_, rfl, by decide, by simp [Sorted], trivial⟩, rfl⟩

theorem jVal_hasTy : HasTy jEnv 1000 jVal (.ref qJ) := by
  refine ⟨_, _, jFields, rfl, rfl, rfl, ?_⟩
  exact ⟨_, _, rfl, rfl, _, _, rfl, rfl, _, _, rfl, ⟨rfl, by decide⟩, _, _, rfl,
    ⟨_, rfl, by decide, ⟨_, _, rfl, rfl, by decide, rfl, rfl⟩, ⟨_, rfl, rfl, by decide⟩, ⟨_, _, rfl, rfl, by decide, rfl, jLeaf_hasTy⟩, trivial⟩,
    _, _, rfl, ⟨_, rfl, by decide, by simp [Sorted], by decide, ⟨rfl, by decide⟩, trivial⟩, rfl⟩

theorem jVal_textual : jVal.Textual := by
  have h1 : double.IsFinite 0x3FB999999999999A := by unfold Fmt.IsFinite Fmt.finite; decide +kernel
  have h2 : single.IsFinite 0xBDCCCCCD := by unfold Fmt.IsFinite Fmt.finite; decide +kernel
  have h3 : double.IsFinite 0x8000000000000000 := by unfold Fmt.IsFinite Fmt.finite; decide +kernel
  have h4 : single.IsFinite 0x4F800000 := by unfold Fmt.IsFinite Fmt.finite; decide +kernel
  refine ⟨h1, h2, trivial, ⟨trivial, trivial, ⟨h3, h4, trivial, trivial, trivial, trivial⟩, trivial⟩,
    ⟨⟨"k".toList, by decide +kernel⟩, ⟨"é".toList, by decide +kernel⟩, trivial⟩, trivial⟩

/-- The hypotheses of C70 and C73 hold for it. -/
theorem jVal_encodes : ∃ j, Marshals jEnv (.ref qJ) jVal j ∧ JsonOf jEnv false j (.ref qJ) jVal :=
  marshal_avro_partial jEnv_sound jVal_hasTy trivial jVal_textual (by decide +kernel)

theorem jTree_means : JsonOf jEnv false jTree (.ref qJ) jVal := by
  obtain ⟨j, h, hj⟩ := jVal_encodes
  have e := jVal_writes
  rw [Marshals, h] at e
  cases e
  exact hj

example : ∃ j, Marshals jEnv (.ref qJ) jVal j ∧ Unmarshals .simple jEnv (.ref qJ) .nil j jVal :=
  json_round_trip_partial jEnv_sound jVal_hasTy trivial jVal_textual (by decide +kernel) (.recordZero rfl rfl)

/-- C71, into a variable that already holds a record, with no map entries. -/
example : Unmarshals .simple jEnv (.ref qJ) jLeaf jTree jVal := by
  refine unmarshal_avro jTree_means (.record rfl rfl ?_) (by decide +kernel)
  intro i f v hf hv
  match i with
  | 0 => cases hf; exact .double
  | 1 => cases hf; exact .float
  | 2 => cases hf; exact .bytes
  | 3 => cases hf; cases hv; exact .array (by simp)
  | 4 => cases hf; cases hv; exact .map
  | i + 5 => simp [jFields] at hf

/-- C74: `{..., "us":[null,{"int":3000000000}], ...}` -/
example (cur : Val) : JsonRefused nm jEnv (.ref qJ) cur (jo [("us", .arr [.null, jo [("int", jn 3000000000)]]), ("b", js "")]) := by
  refine unmarshal_wrong_refused_partial (.field (f := jFields[3]) rfl rfl (by simp [jFields]) (by decide) rfl ?_) cur
  refine .item (j := jo [("int", jn 3000000000)]) (by simp) (.member (i := 0) rfl (by simp) .int ?_ (.int (by decide)))
  intro i' t' h
  omega

/-! C72: `{"z":5}` for the record of Props/DefaultsEx -/

theorem five_means : JsonOf dEnv true (jo [("z", jn 5)]) (.ref qD) (.record (dVals.take 14 ++ [.long 5])) := by
  refine .record (fs := dFields) rfl rfl (by decide) (fun h => by cases h) rfl ?_ ?_
  · intro i f v j hf hv hj
    by_cases hi : i = 14
    · subst hi
      cases hf; cases hv; cases hj
      exact .long (z := 5) rfl (by decide) (by decide)
    · exfalso
      have : ∀ i, i ≠ 14 → ∀ f, dFields[i]? = some f → (f.inJson true (jo [("z", jn 5)] |> fun | .obj kvs => kvs | _ => [])).isSome = false := by
        intro i hi f hf
        match i with
        | 0 | 1 | 2 | 3 | 4 | 5 | 6 | 7 | 8 | 9 | 10 | 11 | 12 | 13 => cases hf; decide
        | 14 => exact absurd rfl hi
        | i + 15 => simp [dFields] at hf
      have h := this i hi f hf
      rw [show f.inJson true (jo [("z", jn 5)] |> fun | .obj kvs => kvs | _ => []) = some j from hj] at h
      cases h
  · intro i f v hf hv hn
    refine ⟨rfl, ?_⟩
    have hi : i < 14 := by
      have hl : i < 15 := (List.getElem?_eq_some_iff.1 hf).1
      by_cases h : i = 14
      · subst h; cases hf; cases hn
      · omega
    have hv' : dVals[i]? = some v := by
      rw [List.getElem?_append_left (by simp [dVals]; omega), List.getElem?_take_of_lt hi] at hv
      exact hv
    have hd : ∃ j, f.dflt = some j := by
      have hall : ∀ g ∈ dFields.take 14, g.dflt.isSome = true := by decide +kernel
      refine Option.isSome_iff_exists.1 (hall f (List.mem_of_getElem? (i := i) ?_))
      rw [List.getElem?_take_of_lt hi]
      exact hf
    obtain ⟨j, hj⟩ := hd
    exact ⟨j, hj, dEnv_means i f j v hf hj hv'⟩

example : Unmarshals .simple dEnv (.ref qD) .nil (jo [("z", jn 5)]) (.record (dVals.take 14 ++ [.long 5])) :=
  unmarshal_extended_partial dEnv_enums dEnv_apart dEnv_returns five_means (.recordZero rfl rfl) (by decide)

/-! An alias, an entry of no field, a string for the enum's default, a missing field -/

def qX : QName := ⟨[], "X".toList⟩
def qXE : QName := ⟨[], "E".toList⟩
def xEnv : Env :=
  [(qX, { name := qX, kind := .record [{ name := "a".toList, aliases := ["old".toList], ty := .int },
      { name := "e".toList, ty := .ref qXE }, { name := "n".toList, ty := .int, dflt := some (.num 7) }] }),
   (qXE, { name := qXE, kind := .enum ["P".toList, "Q".toList] "Q".toList })]

example : Unmarshals .simple xEnv (.ref qX) .nil (jo [("old", jn 3), ("more", .null), ("e", js "R")])
    (.record [.int 3, .enum 1, .int 7]) := by
  refine unmarshal_extended_partial (enums_of (by decide +kernel)) (wellFormed_of (s := ⟨xEnv, .ref qX⟩)
    (fun q => if q = qX then 1 else 0) (by decide +kernel)).apart (returns_of 3 (by decide +kernel))
    (.record rfl rfl (by decide) (fun h => by cases h) rfl ?_ ?_) (.recordZero rfl rfl) (by decide)
  · intro i f v j hf hv hj
    match i with
    | 0 => cases hf; cases hv; cases hj; exact .int (z := 3) rfl (by decide) (by decide)
    | 1 =>
      cases hf; cases hv; cases hj
      exact .enumDefault (syms := ["P".toList, "Q".toList]) (e := "Q".toList) (i := 1) rfl rfl rfl (by decide) (by decide) rfl
    | 2 => cases hf; cases hj
    | i + 3 => simp at hf
  · intro i f v hf hv hn
    match i with
    | 0 => cases hf; cases hn
    | 1 => cases hf; cases hn
    | 2 => cases hf; cases hv; exact ⟨rfl, _, rfl, .int (by decide) (by decide)⟩
    | i + 3 => simp at hf

/-! What is missing in C70 and C73 -/

/-- A schema with one record, of one field `x`. -/
def xOf (t : Ty) : Env := [(qX, { name := qX, kind := .record [{ name := "x".toList, ty := t }] })]
def vOf (v : Val) : Val := .record [v]
def oOf (j : JTree) : JTree := jo [("x", j)]

theorem xOf_hasTy {lim : Nat} {v : Val} {t : Ty} (h : HasTy (xOf t) lim v t) : HasTy (xOf t) lim (vOf v) (.ref qX) :=
  ⟨_, _, _, rfl, rfl, rfl, _, _, rfl, h, rfl⟩

theorem oOf_means {j : JTree} {t : Ty} {v : Val} {ext : Bool} (h : JsonOf (xOf t) ext (oOf j) (.ref qX) v) :
    ∃ v', v = vOf v' ∧ JsonOf (xOf t) ext j t v' := by
  cases h with
  | @record kvs q d fs vs hq hk h1 h2 hl hj h4 =>
    cases hq
    cases hk
    match vs, hl with
    | [v'], _ => exact ⟨v', rfl, hj 0 _ v' j rfl rfl (by simp [Field.inJson, firstMember, member])⟩

/-- NaN cannot be written. -/
theorem nan_refused : HasTy (xOf .double) 9 (vOf (.double 0x7FF8000000000000)) (.ref qX) ∧
    jsonEncode (xOf .double) (vOf (.double 0x7FF8000000000000)) (.ref qX) = .error .refused :=
  ⟨xOf_hasTy rfl, rfl⟩

/-- Nor can an infinity, in a union in an array, say. -/
example (j : JTree) : ¬Marshals (xOf (.array (.union [.null, .float]))) (.ref qX) (vOf (.array [.union 1 (some (.float 0xFF800000))])) j := by
  intro h
  have : single.IsFinite 0xFF800000 := (marshalled_finite h).1.1
  exact absurd this (by unfold Fmt.IsFinite Fmt.finite; decide)

/-- A string that is not UTF-8 is written as another one: after the round trip the byte FF is the three bytes of
U+FFFD. -/
theorem bad_text_changed : HasTy (xOf .string) 9 (vOf (.string [0xFF])) (.ref qX) ∧
    Marshals (xOf .string) (.ref qX) (vOf (.string [0xFF])) (oOf (.str [Char.ofNat 0xFFFD])) ∧
    Unmarshals nm (xOf .string) (.ref qX) .nil (oOf (.str [Char.ofNat 0xFFFD])) (vOf (.string [0xEF, 0xBF, 0xBD])) := by
  refine ⟨xOf_hasTy ⟨rfl, by decide⟩, marshals_of (by decide +kernel), 0, fun n _ => ?_⟩
  rfl

/-- A nil slice, as in a record that was not made by its constructor, is written as null, which is no Avro encoding of
an array. -/
theorem nil_slice_null : Marshals (xOf (.array .int)) (.ref qX) (vOf .nil) (oOf .null) ∧
    ∀ v, ¬JsonOf (xOf (.array .int)) false (oOf .null) (.ref qX) v := by
  refine ⟨marshals_of (by decide +kernel), fun v h => ?_⟩
  obtain ⟨v', _, h'⟩ := oOf_means h
  cases h'

/-- The same for a nil map. -/
theorem nil_map_null : Marshals (xOf (.map .int)) (.ref qX) (vOf .nil) (oOf .null) ∧
    ∀ v, ¬JsonOf (xOf (.map .int)) false (oOf .null) (.ref qX) v := by
  refine ⟨marshals_of (by decide +kernel), fun v h => ?_⟩
  obtain ⟨v', _, h'⟩ := oOf_means h
  cases h'

/-- An enum without symbol for its value is written as "unknown", without error; reading that is an error. -/
theorem unknown_symbol_written :
    Marshals [(qXE, { name := qXE, kind := .enum ["P".toList] [] })] (.ref qXE) (.enum 5) (js "unknown") ∧
    ∀ cur, JsonRefused nm [(qXE, { name := qXE, kind := .enum ["P".toList] [] })] (.ref qXE) cur (js "unknown") :=
  ⟨marshals_of (by decide +kernel), fun cur => unmarshal_wrong_refused_partial (.symbol rfl rfl (by decide)) cur⟩

/-- Two arrays in a union (which Avro forbids and the parser accepts): the second comes back as the first. -/
theorem two_arrays_confused : HasTy [] 9 (.union 1 (some (.array []))) (.union [.array .int, .array .string]) ∧
    Marshals [] (.union [.array .int, .array .string]) (.union 1 (some (.array []))) (jo [("array", .arr [])]) ∧
    Unmarshals nm [] (.union [.array .int, .array .string]) .nil (jo [("array", .arr [])]) (.union 0 (some (.array []))) :=
  ⟨⟨_, _, rfl, rfl, by decide, rfl, _, rfl, by decide, trivial⟩, marshals_of (by decide +kernel), 0, fun n _ => rfl⟩

/-- A list of `n + 1` nodes, with one field, and its JSON. -/
def deepVal : Nat → Val
  | 0 => vOf .nil
  | n + 1 => vOf (.union 1 (some (deepVal n)))
def deepTy : Ty := .union [.null, .ref qX]
def deepTree : Nat → JTree
  | 0 => oOf .null
  | n + 1 => oOf (jo [("X", deepTree n)])

theorem oOf_depth (j : JTree) : (oOf j).depth = j.depth + 1 := by simp [oOf, jo, JTree.depth, JTree.depthsOf]
theorem deepTree_depth : ∀ n, (deepTree n).depth = 2 * n + 1
  | 0 => rfl
  | n + 1 => by
    rw [deepTree, oOf_depth, jo]
    simp only [List.map_cons, List.map_nil, JTree.depth, JTree.depthsOf, deepTree_depth n]
    omega

theorem deepVal_hasTy : ∀ n, HasTy (xOf deepTy) 9 (deepVal n) (.ref qX)
  | 0 => xOf_hasTy ⟨_, rfl, rfl, by decide⟩
  | n + 1 => xOf_hasTy ⟨_, _, rfl, rfl, by decide, rfl, deepVal_hasTy n⟩

theorem deepVal_textual : ∀ n, (deepVal n).Textual
  | 0 => ⟨trivial, trivial⟩
  | n + 1 => ⟨deepVal_textual n, trivial⟩

theorem marshal_vOf {v : Val} {t : Ty} {j : JTree} (h : marshal (xOf t) v t = .ok j) :
    marshal (xOf t) (vOf v) (.ref qX) = .ok (oOf j) := by
  have hq : (xOf t).find qX = some { name := qX, kind := .record [{ name := "x".toList, ty := t }] } := rfl
  have hx : fromUtf8 (utf8 "x".toList) = "x".toList := fromUtf8_utf8 _
  simp only [vOf, marshal, hq, marshalFields, h, Except.map, Except.bind, mapOf, mapInserts, List.foldl_cons, List.foldl_nil, mapInsert,
    rawObject, List.map_cons, List.map_nil, hx]
  rfl

theorem deepVal_marshal : ∀ n, marshal (xOf deepTy) (deepVal n) (.ref qX) = .ok (deepTree n)
  | 0 => by with_unfolding_all rfl
  | n + 1 => by
    have hk : unionKey (xOf deepTy) (.ref qX) = some "X".toList := rfl
    have hc : unionCase [.null, .ref qX] 1 = some (.ref qX) := rfl
    have hu : marshal (xOf deepTy) (.union 1 (some (deepVal n))) deepTy = .ok (jo [("X", deepTree n)]) := by
      show marshal (xOf deepTy) (.union 1 (some (deepVal n))) (.union [.null, .ref qX]) = _
      simp only [marshal, hc, hk, deepVal_marshal n]
      rfl
    exact marshal_vOf hu

/-- A list of more than 5000 nodes cannot be written. (Its Avro binary encoding has no such bound.) -/
theorem deep_refused (n : Nat) (h : 5000 ≤ n) : HasTy (xOf deepTy) 9 (deepVal n) (.ref qX) ∧ (deepVal n).Textual ∧
    jsonEncode (xOf deepTy) (deepVal n) (.ref qX) = .error .refused := by
  refine ⟨deepVal_hasTy n, deepVal_textual n, ?_⟩
  have hd : ¬(deepTree n).depth ≤ maxNesting := by rw [deepTree_depth, maxNesting]; omega
  simp only [jsonEncode, deepVal_marshal, Except.bind, if_neg hd]

/-! What is missing in C71: the variable holds entries -/

/-- They stay. -/
theorem map_entries_stay : JsonOf [] false (jo [("k", jn 1)]) (.map .int) (.map [(txt "k", .int 1)]) ∧
    Unmarshals nm [] (.map .int) (.map [(txt "old", .int 5)]) (jo [("k", jn 1)]) (.map [(txt "k", .int 1), (txt "old", .int 5)]) := by
  refine ⟨?_, 0, fun n _ => rfl⟩
  refine JsonOf.map (kvs := [("k".toList, jn 1)]) (vs := [.int 1]) (by decide) rfl ?_
  intro i kv v hk hv
  match i with
  | 0 => cases hk; cases hv; exact .int (z := 1) rfl (by decide) (by decide)
  | i + 1 => simp at hk

/-! What is missing in C74 -/

/-- null is taken for an int: the variable keeps what it holds. -/
theorem null_int_accepted : (∀ v, ¬JsonOf (xOf .int) true (oOf .null) (.ref qX) v) ∧
    Unmarshals nm (xOf .int) (.ref qX) (vOf (.int 7)) (oOf .null) (vOf (.int 7)) := by
  refine ⟨fun v h => ?_, 0, fun n _ => rfl⟩
  obtain ⟨v', _, h'⟩ := oOf_means h
  cases h'

/-- A character above U+00FF in bytes is cut to its low byte. -/
theorem bytes_char_cut : (∀ v, ¬JsonOf (xOf .bytes) true (oOf (.str [Char.ofNat 0x141])) (.ref qX) v) ∧
    Unmarshals nm (xOf .bytes) (.ref qX) .nil (oOf (.str [Char.ofNat 0x141])) (vOf (.bytes [0x41])) := by
  refine ⟨fun v h => ?_, 0, fun n _ => rfl⟩
  obtain ⟨v', _, h'⟩ := oOf_means h
  cases h' with
  | bytes hb => exact absurd (hb _ (List.mem_singleton.2 rfl)) (by decide)

/-- A fixed of two bytes takes a string of one. -/
theorem fixed_short_accepted : (∀ v, ¬JsonOf [(qXE, { name := qXE, kind := .fixed 2 })] true (js "a") (.ref qXE) v) ∧
    Unmarshals nm [(qXE, { name := qXE, kind := .fixed 2 })] (.ref qXE) (.fixed [0, 0]) (js "a") (.fixed [0x61, 0]) := by
  refine ⟨fun v h => ?_, 0, fun n _ => rfl⟩
  cases h with
  | enum hq hk => cases hq; cases hk
  | enumDefault _ hq hk => cases hq; cases hk
  | fixed hq hk _ hl => cases hq; cases hk; exact absurd hl (by decide)

/-- A key that is there twice: the last one counts. -/
theorem twice_accepted : (∀ v, ¬JsonOf (xOf .int) true (jo [("x", js "?"), ("x", jn 2)]) (.ref qX) v) ∧
    Unmarshals nm (xOf .int) (.ref qX) .nil (jo [("x", js "?"), ("x", jn 2)]) (vOf (.int 2)) := by
  refine ⟨fun v h => ?_, 0, fun n _ => rfl⟩
  cases h with
  | record _ _ hn => exact absurd hn (by decide)

end Verif.Props
