import Verif.Gen.JsonCode
import Verif.Gen.DefaultCodeMeans
import Verif.Gen.CodeSer
import Verif.Gen.JsonText
import Verif.Gen.TextProof
/-
The programs of `MarshalJSON` do what `marshal` (Gen/Json) says.
-/
namespace Verif
open Spec Spec.Go Spec.GoJ

variable {P : Spec.GoD.Package}

/-- `json.Marshal`, Gen/Json. -/
def theMarshal (P : Spec.GoD.Package) : Marshal := fun v t => marshal P.n.env v t.erase

/-! ### Parts -/

theorem part_field {q : QName} {d : PDef} {fs : List PField} {doc : Str} (hq : P.n.find q = some d) (hk : d.kind = .record fs doc)
    (hn : (fs.map fun f => fieldGoName P.nm f.name).Nodup) {i : Nat} {f : PField} (hf : fs[i]? = some f) {vs : List Val} {v : Val} (hv : vs[i]? = some v) :
    part P (.ref q) (.record vs) (fieldGoName P.nm f.name) = some (f.ty, v, fun x => .record (vs.set i x)) := by
  have h : GoD.named (fieldGoName P.nm f.name) 0 (fs.map fun f => (fieldGoName P.nm f.name, f.ty)) = some (i, f.ty) := by
    have := named_at (x := fieldGoName P.nm f.name) (a := f.ty) (l := fs.map fun f => (fieldGoName P.nm f.name, f.ty)) (k := 0) (i := i)
      (by rw [List.map_map]; exact hn) (by rw [List.getElem?_map, hf]; rfl)
    rw [Nat.zero_add] at this
    exact this
  simp only [part, hq, hk, h, hv, Option.map_some]

theorem named_member {ts : List PTy} (hn : (ts.map (PTy.goName P.nm P.n)).Nodup) {i : Nat} {u : PTy} (hu : ts[i]? = some u) :
    GoD.named (u.goName P.nm P.n) 0 (ts.map fun t => (t.goName P.nm P.n, t)) = some (i, u) := by
  have := named_at (x := u.goName P.nm P.n) (a := u) (l := ts.map fun t => (t.goName P.nm P.n, t)) (k := 0) (i := i)
    (by rw [List.map_map]; exact hn) (by rw [List.getElem?_map, hu]; rfl)
  rw [Nat.zero_add] at this
  exact this

/-! ### Records -/

theorem mrun_puts {E : EnumFuncs} {q : QName} {d : PDef} {fs : List PField} {doc : Str} (hq : P.n.find q = some d) (hk : d.kind = .record fs doc)
    (hn : (fs.map fun f => fieldGoName P.nm f.name).Nodup) : ∀ (rest pre : List PField) (done vs : List Val) (out : List (List Byte × JTree)) (err : Option JErr),
    fs = pre ++ rest → done.length = pre.length → vs.length = rest.length →
    mrun P (theMarshal P) E (.ref q) (.record (done ++ vs)) { err, output := out } (putSts P.nm rest ++ [.retOutput]) =
      (marshalFields P.n.env vs (rest.map PField.erase)).map fun es => rawObject (mapInserts out es)
  | [], pre, done, vs, out, err, hf, hd, hl => by
    have : vs = [] := List.eq_nil_of_length_eq_zero (by simpa using hl)
    subst this
    rfl
  | f :: rest, pre, done, vs, out, err, hf, hd, hl => by
    cases vs with
    | nil => simp at hl
    | cons v vs =>
      have hp := part_field hq hk hn (i := done.length) (f := f) (by rw [hf, hd]; simp) (vs := done ++ v :: vs) (v := v) (by simp)
      have ih := fun j => mrun_puts (E := E) hq hk hn rest (pre ++ [f]) (done ++ [v]) vs (mapInsert (utf8 f.name) j out) none
        (by rw [hf]; simp) (by simp [hd]) (by simpa using hl)
      simp only [putSts, List.cons_append, mrun, mstep, hp, List.map_cons]
      show _ = ((marshal P.n.env v f.ty.erase).bind fun j => (marshalFields P.n.env vs (rest.map PField.erase)).map ((utf8 f.name, j) :: ·)).map _
      unfold theMarshal
      cases marshal P.n.env v f.ty.erase with
      | error e => rfl
      | ok j =>
        have := ih j
        rw [List.append_assoc, List.cons_append, List.nil_append] at this
        refine Eq.trans this ?_
        show _ = ((marshalFields P.n.env vs (rest.map PField.erase)).map ((utf8 f.name, j) :: ·)).map _
        cases marshalFields P.n.env vs (rest.map PField.erase) <;> rfl

theorem record_marshal {E : EnumFuncs} {q : QName} {d : PDef} {fs : List PField} {doc : Str} (hq : P.n.find q = some d) (hk : d.kind = .record fs doc)
    (hn : (fs.map fun f => fieldGoName P.nm f.name).Nodup) {vs : List Val} (hl : vs.length = fs.length) :
    mrun P (theMarshal P) E (.ref q) (.record vs) {} (recordMarshal P.nm fs) = marshal P.n.env (.record vs) (.ref q) := by
  have h := mrun_puts (E := E) hq hk hn fs [] [] vs [] none rfl rfl hl
  have e : mrun P (theMarshal P) E (.ref q) (.record vs) {} (recordMarshal P.nm fs) =
      mrun P (theMarshal P) E (.ref q) (.record ([] ++ vs)) {} (putSts P.nm fs ++ [.retOutput]) := by
    unfold recordMarshal
    split <;> rfl
  rw [e]
  refine Eq.trans h ?_
  simp only [marshal, find_erase hq, kind_record hk]
  rfl

/-! ### Unions -/

theorem erases_map (ts : List PTy) : PTy.erases ts = ts.map PTy.erase := by
  induction ts with
  | nil => rfl
  | cons t ts ih => simp only [PTy.erases, ih, List.map_cons]

theorem unionConst_at {name : Str} {ts : List PTy} {d : List Json} (hn : (ts.map (PTy.goName P.nm P.n)).Nodup) {i : Nat} {u : PTy} (hu : ts[i]? = some u) :
    unionConst P (.union name ts d) (unionEnumType ((PTy.union name ts d).goName P.nm P.n) ++ u.goName P.nm P.n) = some i := by
  unfold unionConst
  generalize unionEnumType ((PTy.union name ts d).goName P.nm P.n) = x
  have := named_at (x := x ++ u.goName P.nm P.n) (a := ()) (l := ts.map fun t => (x ++ t.goName P.nm P.n, ())) (k := 0) (i := i)
    (by
      rw [List.map_map]
      have e : (Prod.fst ∘ fun t => (x ++ t.goName P.nm P.n, ())) = (x ++ ·) ∘ PTy.goName P.nm P.n := rfl
      rw [e, ← List.map_map]
      exact hn.map _ (fun a b h e => h (List.append_cancel_left e))) (by rw [List.getElem?_map, hu]; rfl)
  dsimp only
  rw [this, Nat.zero_add]; rfl

theorem key_utf8 (n : NS) (t : PTy) : bytesOf (t.key n) = utf8 (t.key n) := (utf8_bytesOf _).symm

theorem toInt_small {w n : Nat} (h : 2 * n < 2 ^ w) : (BitVec.ofNat w n).toInt = n := by
  have h1 : (BitVec.ofNat w n).toNat = n := by rw [BitVec.toNat_ofNat]; exact Nat.mod_eq_of_lt (by omega)
  rw [BitVec.toInt_eq_toNat_of_lt (by rw [h1]; exact h), h1]

theorem tag_eq {tag : BitVec 64} {i : Nat} (hi : i < 2 ^ 63) : tag = BitVec.ofNat 64 i ↔ 0 ≤ tag.toInt ∧ tag.toInt.toNat = i := by
  constructor
  · rintro rfl
    rw [toInt_small (by omega)]
    omega
  · rintro ⟨h1, h2⟩
    apply BitVec.eq_of_toInt_eq
    rw [toInt_small (by omega)]
    omega

theorem mswitch_cases {name : Str} {ts : List PTy} {d : List Json} (hn : (ts.map (PTy.goName P.nm P.n)).Nodup) (hb : ts.length < 2 ^ 63)
    {tag : BitVec 64} {v : Val} {null : Option Nat} : ∀ (rest pre : List PTy), ts = pre ++ rest →
    mswitch P (theMarshal P) (.union name ts d) (.union tag (some v)) tag (jsonCases P.nm P.n (unionEnumType ((PTy.union name ts d).goName P.nm P.n)) null pre.length rest) =
      if 0 ≤ tag.toInt ∧ null ≠ some tag.toInt.toNat ∧ pre.length ≤ tag.toInt.toNat then
        (ts[tag.toInt.toNat]?).map fun u => (marshal P.n.env v u.erase).map fun j => .obj [(u.key P.n, j)]
      else none
  | [], pre, hp => by
    rw [List.append_nil] at hp
    subst hp
    simp only [jsonCases, mswitch]
    split
    · rename_i h
      rw [List.getElem?_eq_none (by omega)]; rfl
    · rfl
  | u :: rest, pre, hp => by
    have ih := mswitch_cases (d := d) (v := v) (tag := tag) (null := null) (name := name) hn hb rest (pre ++ [u]) (by rw [hp]; simp)
    rw [List.length_append, List.length_singleton] at ih
    have hu : ts[pre.length]? = some u := by rw [hp]; simp
    have hlt : pre.length < 2 ^ 63 := by
      have := (List.getElem?_eq_some_iff.1 hu).1; omega
    rw [jsonCases]
    by_cases h0 : null = some pre.length
    · rw [if_pos h0, List.nil_append, ih]
      congr 1
      refine propext ⟨fun ⟨a, b, c⟩ => ⟨a, b, by omega⟩, fun ⟨a, b, c⟩ => ⟨a, b, ?_⟩⟩
      have : tag.toInt.toNat ≠ pre.length := fun e => b (by rw [e]; exact h0)
      omega
    · rw [if_neg h0, List.singleton_append, mswitch, unionConst_at hn hu]
      dsimp only
      by_cases ht : tag = BitVec.ofNat 64 pre.length
      · obtain ⟨h1, h2⟩ := (tag_eq hlt).1 ht
        rw [if_pos ht, if_pos ⟨h1, by rw [h2]; exact h0, by omega⟩, h2, hu]
        have hpt : part P (.union name ts d) (.union tag (some v)) (u.goName P.nm P.n) = some (u, v, fun y => .union tag (some y)) := by
          simp only [part, named_member hn hu, if_pos ht, Option.getD_some]
        rw [hpt]
        dsimp only
        rw [key_utf8, fromUtf8_utf8]; rfl
      · rw [if_neg ht, ih]
        congr 1
        refine propext ⟨fun ⟨a, b, c⟩ => ⟨a, b, by omega⟩, fun ⟨a, b, c⟩ => ⟨a, b, ?_⟩⟩
        have : tag.toInt.toNat ≠ pre.length := fun e => ht ((tag_eq hlt).2 ⟨a, e⟩)
        omega

theorem null_erase (ts : List PTy) : nullIndex (PTy.erases ts) = nullAt 0 ts := nullIndexFrom_erase ts 0

theorem union_marshal {E : EnumFuncs} {name : Str} {ts : List PTy} {d : List Json} (type : Str) (hn : (ts.map (PTy.goName P.nm P.n)).Nodup) (hb : ts.length < 2 ^ 63)
    (hk : ∀ u ∈ ts, (unionKey P.n.env u.erase).isSome = true) {tag : BitVec 64} {v : Val} :
    mrun P (theMarshal P) E (.union name ts d) (.union tag (some v)) {} (unionMarshal P.nm P.n ((PTy.union name ts d).goName P.nm P.n) type ts) =
      marshal P.n.env (.union tag (some v)) (PTy.erase (.union name ts d)) := by
  have h := mswitch_cases (d := d) (v := v) (tag := tag) (null := nullAt 0 ts) (name := name) hn hb ts [] rfl
  have e : mrun P (theMarshal P) E (.union name ts d) (.union tag (some v)) {} (unionMarshal P.nm P.n ((PTy.union name ts d).goName P.nm P.n) type ts) =
      match mswitch P (theMarshal P) (.union name ts d) (.union tag (some v)) tag (jsonCases P.nm P.n (unionEnumType ((PTy.union name ts d).goName P.nm P.n)) (nullAt 0 ts) 0 ts) with
      | none => .error .refused
      | some x => x := by
    unfold unionMarshal
    cases hN : (nullAt 0 ts).isSome <;>
      · simp only [if_true, if_false, Bool.false_eq_true, List.nil_append, List.cons_append, mrun, mstep]
        cases mswitch P (theMarshal P) (.union name ts d) (.union tag (some v)) tag _ <;> rfl
  rw [e]
  simp only [List.length_nil] at h
  rw [h]
  simp only [PTy.erase, marshal, unionCase, null_erase]
  by_cases h1 : 0 ≤ tag.toInt ∧ nullAt 0 ts ≠ some tag.toInt.toNat
  · rw [if_pos h1, if_pos ⟨h1.1, h1.2, by omega⟩, erases_map, List.getElem?_map]
    cases hu : ts[tag.toInt.toNat]? with
    | none => rfl
    | some u =>
      simp only [Option.map_some]
      have := hk u (List.mem_of_getElem? hu)
      unfold PTy.key
      cases hc : unionKey P.n.env u.erase with
      | none => rw [hc] at this; cases this
      | some k => rfl
  · rw [if_neg h1, if_neg (fun h => h1 ⟨h.1, h.2.1⟩)]

theorem null_any : ∀ (ts : List PTy) (i : Nat), (nullAt i ts).isSome = (PTy.erases ts).any Ty.isNull
  | [], _ => rfl
  | t :: ts, i => by
    simp only [nullAt, PTy.erases, List.any_cons]
    have : nullTy t = t.erase.isNull := by
      cases t with
      | prim p d => cases p <;> rfl
      | _ => rfl
    rw [← this]
    cases nullTy t with
    | true => rfl
    | false => simp only [Bool.false_eq_true, if_false, Bool.false_or]; exact null_any ts (i + 1)

theorem union_marshal_nil {E : EnumFuncs} {name : Str} {ts : List PTy} {d : List Json} (gn type : Str) (hN : (nullAt 0 ts).isSome = true) :
    mrun P (theMarshal P) E (.union name ts d) .nil {} (unionMarshal P.nm P.n gn type ts) = marshal P.n.env .nil (PTy.erase (.union name ts d)) := by
  unfold unionMarshal
  rw [if_pos hN]
  simp only [List.cons_append, mrun, mstep, PTy.erase, marshal]
  rw [← null_any ts 0, if_pos hN]

/-! ### Enums, fixed, bytes -/

theorem stringOf_at {q : QName} {d : PDef} {syms : List Str} {doc dflt : Str} (hq : P.n.find q = some d) (hk : d.kind = .enum syms doc dflt)
    (hn : (syms.map (symbolGoName P.nm (d.goName P.nm))).Nodup) (hb : syms.length < 2 ^ 31) (v : BitVec 32) : ∀ (rest pre : List Str), syms = pre ++ rest →
    (0 ≤ v.toInt → pre.length ≤ v.toInt.toNat) →
    stringOf P (.ref q) v (rest.map fun s => (symbolGoName P.nm (d.goName P.nm) s, bytesOf s)) = utf8 (enumString syms v)
  | [], pre, hp, hv => by
    rw [List.append_nil] at hp
    subst hp
    unfold enumString
    have : (if 0 ≤ v.toInt then syms[v.toInt.toNat]? else none) = none := by
      split
      · rename_i h; exact List.getElem?_eq_none (hv h)
      · rfl
    rw [this]
    simp only [List.map_nil, stringOf, utf8_bytesOf]
  | s :: rest, pre, hp, hv => by
    have hs : syms[pre.length]? = some s := by rw [hp]; simp
    have hlt := (List.getElem?_eq_some_iff.1 hs).1
    have hc : enumConst P (.ref q) (symbolGoName P.nm (d.goName P.nm) s) = some (BitVec.ofNat 32 pre.length) := by
      simp only [enumConst, hq, hk]
      exact symbolConst_ok hn hs
    rw [List.map_cons, stringOf, hc]
    by_cases h : BitVec.ofNat 32 pre.length = v
    · rw [if_pos (by rw [h])]
      have h2 : v.toInt = pre.length := by
        rw [← h, toInt_small (by omega)]
      unfold enumString
      rw [if_pos (by omega), h2, Int.toNat_natCast, hs, utf8_bytesOf]
    · rw [if_neg (fun e => h (Option.some.inj e))]
      refine stringOf_at hq hk hn hb v rest (pre ++ [s]) (by rw [hp]; simp) fun h0 => ?_
      have := hv h0
      rw [List.length_append, List.length_singleton]
      have hne : v.toInt.toNat ≠ pre.length := fun e => h (by
        apply BitVec.eq_of_toInt_eq
        rw [toInt_small (by omega)]
        omega)
      omega

theorem enum_marshal {q : QName} {d : PDef} {syms : List Str} {doc dflt : Str} (hq : P.n.find q = some d) (hk : d.kind = .enum syms doc dflt)
    (hn : (syms.map (symbolGoName P.nm (d.goName P.nm))).Nodup) (hb : syms.length < 2 ^ 31) (v : BitVec 32) :
    mrun P (theMarshal P) (enumFuncs P.nm (d.goName P.nm) syms dflt) (.ref q) (.enum v) {} enumMarshal = marshal P.n.env (.enum v) (.ref q) := by
  simp only [enumMarshal, mrun, mstep, enumFuncs, marshal, find_erase hq, kind_enum hk, marshalString]
  rw [stringOf_at hq hk hn hb v syms [] rfl (fun _ => Nat.zero_le _), fromUtf8_utf8]

theorem fixed_marshal {E : EnumFuncs} {q : QName} {d : PDef} {k : Int} (hq : P.n.find q = some d) (hk : d.kind = .fixed k) (bs : List Byte) :
    mrun P (theMarshal P) E (.ref q) (.fixed bs) {} fixedMarshal = marshal P.n.env (.fixed bs) (.ref q) := by
  simp only [fixedMarshal, mrun, mstep, marshal, find_erase hq, kind_fixed hk]

theorem bytes_marshal {E : EnumFuncs} (d : Json) (bs : List Byte) :
    mrun P (theMarshal P) E (.prim .bytes d) (.bytes bs) {} bytesMarshal = marshal P.n.env (.bytes bs) .bytes := rfl

end Verif
