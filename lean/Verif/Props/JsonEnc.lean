import Verif.Gen.JsonMarshal
import Verif.Gen.JsonUnmarshal
import Verif.Gen.JsonRefuse
import Verif.Props.Defaults
/-
Properties C70 - C74: the JSON that generated types write and read.

`JsonOf env false j t v` (Spec/JsonEnc): by Avro's rules the JSON value `j` is the encoding of the value `v` of
type `t`. `JsonOf env true` is the reading that the generated code extends it to: aliases, defaults and
unknown entries. Props/JsonEncEx has examples, and what the code does when conditions are not met.
-/
namespace Verif.Props
open Verif

variable {nm : Namer} {env : Env}

/-- `json.Marshal(v)` returns a text of the value `j`. -/
def Marshals (env : Env) (t : Ty) (v : Val) (j : JTree) : Prop := jsonEncode env v t = .ok j

/-- `json.Unmarshal` of a text of the value `j`, into a variable of type `t` that holds `cur`, succeeds and leaves
`v` there. -/
def Unmarshals (nm : Namer) (env : Env) (t : Ty) (cur : Val) (j : JTree) (v : Val) : Prop :=
  ∃ N, ∀ n ≥ N, jsonDecode nm env n j t cur = .ok v

/-- It does not succeed. -/
def JsonRefused (nm : Namer) (env : Env) (t : Ty) (cur : Val) (j : JTree) : Prop :=
  ∀ n v, jsonDecode nm env n j t cur ≠ .ok v

/-- What is asked of a schema: symbols of an enum, fields of a record, members of a union have different names. -/
structure JsonSound (env : Env) : Prop where
  symbols : SymbolsApart env
  fields : FieldNamesApart env
  unions : FieldsNamed env

/-- `json.Unmarshal` has one result. -/
theorem Unmarshals.same {t : Ty} {cur v v' : Val} {j : JTree} (h : Unmarshals nm env t cur j v)
    (h' : Unmarshals nm env t cur j v') : v = v' := by
  obtain ⟨N, h⟩ := h
  obtain ⟨N', h'⟩ := h'
  have e := h (max N N') (Nat.le_max_left ..)
  rw [h' (max N N') (Nat.le_max_right ..)] at e
  cases e
  rfl

theorem Unmarshals.not_refused {t : Ty} {cur v : Val} {j : JTree} (h : Unmarshals nm env t cur j v) :
    ¬JsonRefused nm env t cur j := by
  obtain ⟨N, h⟩ := h
  exact fun hr => hr N v (h N (Nat.le_refl N))

/-- C70: `json.Marshal` of a value writes Avro's JSON encoding of it. Missing: floats that are no number and
strings that are no text; nil slices and maps (written as null); values nested deeper than encoding/json goes. -/
theorem marshal_avro_partial (hs : JsonSound env) {lim : Nat} {v : Val} {t : Ty} (ht : HasTy env lim v t) (hn : t.Named env)
    (hx : v.Textual) (hd : v.nesting ≤ maxNesting) : ∃ j, Marshals env t v j ∧ JsonOf env false j t v := by
  obtain ⟨j, h, hj⟩ := marshal_ok hs.symbols hs.fields hs.unions v t ht hn hx
  refine ⟨j, ?_, hj⟩
  have hle : j.depth ≤ maxNesting := Nat.le_trans (marshal_depth v t h) hd
  simp only [Marshals, jsonEncode, h, Except.bind, if_pos hle]

/-- C70: a value with an infinity or a NaN anywhere is not written. -/
theorem marshalled_finite {v : Val} {t : Ty} {j : JTree} (h : Marshals env t v j) : v.Finite := by
  simp only [Marshals, jsonEncode] at h
  obtain ⟨j', h', _⟩ := jbind_inv h
  exact marshal_finite v t h'

/-- C71: `json.Unmarshal` of Avro's JSON encoding of a value, into a variable whose maps are empty, leaves that
value there: for every schema. -/
theorem unmarshal_avro {j : JTree} {t : Ty} {v cur : Val} (h : JsonOf env false j t v) (hc : Blank env t cur)
    (hd : j.depth ≤ maxNesting) : Unmarshals nm env t cur j v := by
  obtain ⟨N, hN⟩ := unmarshal_ok (nm := nm) (fun e => by cases e) (fun e => by cases e) (fun e => by cases e) h
  refine ⟨N, fun n hn => ?_⟩
  rw [jsonDecode, if_pos hd]
  exact hN n hn cur hc

/-- C72: the same for the extended reading. Missing: defaults that the code does not set as it should (`DefaultMeans
env false` instead of `true`). -/
theorem unmarshal_extended_partial (hE : EnumsCompile nm env) (hF : FieldsApart env) (hC : ConstructorsReturn nm env)
    {j : JTree} {t : Ty} {v cur : Val} (h : JsonOf env true j t v) (hc : Blank env t cur) (hd : j.depth ≤ maxNesting) :
    Unmarshals nm env t cur j v := by
  obtain ⟨N, hN⟩ := unmarshal_ok (fun _ => hE) (fun _ => hF) (fun _ => hC) h
  refine ⟨N, fun n hn => ?_⟩
  rw [jsonDecode, if_pos hd]
  exact hN n hn cur hc

/-- C73: what `json.Marshal` writes for a value, `json.Unmarshal` reads as this value. Missing: as for C70. -/
theorem json_round_trip_partial (hs : JsonSound env) {lim : Nat} {v cur : Val} {t : Ty} (ht : HasTy env lim v t)
    (hn : t.Named env) (hx : v.Textual) (hd : v.nesting ≤ maxNesting) (hc : Blank env t cur) :
    ∃ j, Marshals env t v j ∧ Unmarshals nm env t cur j v := by
  obtain ⟨j, h, hj⟩ := marshal_avro_partial hs ht hn hx hd
  refine ⟨j, h, unmarshal_avro hj hc ?_⟩
  simp only [Marshals, jsonEncode] at h
  cases hm : marshal env v t with
  | error e => rw [hm] at h; cases h
  | ok j' =>
    rw [hm] at h
    simp only [Except.bind] at h
    split at h
    · cases h; assumption
    · cases h

/-- C74: `json.Unmarshal` returns an error for a text with an error anywhere in it (`Wrong`), whatever the variable
holds. Missing: errors that the code does not see, see `Props/JsonEncEx`. -/
theorem unmarshal_wrong_refused_partial {j : JTree} {t : Ty} (h : Wrong env j t) (cur : Val) : JsonRefused nm env t cur j := by
  intro n v he
  unfold jsonDecode at he
  split at he
  · exact wrong_refused h cur v he
  · cases he

/-- A new Go variable has no maps with entries. -/
theorem new_blank {t : Ty} (h : ∀ q, t = .ref q → ∃ d, env.find q = some d) : Blank env t (jsonZero env t) := blank_zero h

/-- No text is the encoding of two values. -/
theorem json_unique {j : JTree} {t : Ty} {v v' : Val} (h : JsonOf env false j t v) (h' : JsonOf env false j t v') : v = v' := by
  obtain ⟨N, hN⟩ := unmarshal_ok (nm := .simple) (fun e => by cases e) (fun e => by cases e) (fun e => by cases e) h
  obtain ⟨N', hN'⟩ := unmarshal_ok (nm := .simple) (fun e => by cases e) (fun e => by cases e) (fun e => by cases e) h'
  have e := hN (max N N') (Nat.le_max_left ..) _ (blank_zero h.resolved)
  rw [hN' (max N N') (Nat.le_max_right ..) _ (blank_zero h.resolved)] at e
  cases e
  rfl

/-- What C74 is about is no encoding of any value. -/
theorem wrong_is_wrong {j : JTree} {t : Ty} {v : Val} (h : Wrong env j t) : ¬JsonOf env false j t v := by
  intro hj
  obtain ⟨N, hN⟩ := unmarshal_ok (nm := .simple) (fun e => by cases e) (fun e => by cases e) (fun e => by cases e) hj
  exact wrong_refused h _ v (hN N (Nat.le_refl N) _ (blank_zero hj.resolved))

/-- Different values are written differently. -/
theorem marshal_injective (hs : JsonSound env) {lim : Nat} {v v' : Val} {t : Ty} (ht : HasTy env lim v t) (ht' : HasTy env lim v' t)
    (hn : t.Named env) (hx : v.Textual) (hx' : v'.Textual) {j : JTree} (h : Marshals env t v j) (h' : Marshals env t v' j) :
    v = v' := by
  have key : ∀ w, HasTy env lim w t → w.Textual → Marshals env t w j → JsonOf env false j t w := by
    intro w hw hwx hm
    obtain ⟨j', e, hj⟩ := marshal_ok hs.symbols hs.fields hs.unions w t hw hn hwx
    simp only [Marshals, jsonEncode, e, Except.bind] at hm
    split at hm
    · cases hm; exact hj
    · cases hm
  exact json_unique (key v ht hx h) (key v' ht' hx' h')

end Verif.Props
