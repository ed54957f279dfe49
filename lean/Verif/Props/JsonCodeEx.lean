import Verif.Props.JsonCode
import Verif.Props.DefaultCodeEx
import Verif.Props.JsonEncEx
/-
That the theorems of Props/JsonCode apply: the schema of Props/DefaultsEx.
-/
namespace Verif.Props
open Verif Spec Spec.Go Spec.GoD Spec.GoJ

def dDef : PDef := ⟨qD, [], .record (dFields.map liftField) [], []⟩
def pDef : PDef := ⟨qDP, [], .record (dPart.map liftField) [], []⟩
def dUnmarshalText : Str := ofMade (recordUnmarshalText .simple dPackage.n asciiPrint 5 "D".toList (dFields.map liftField))
def pUnmarshalText : Str := ofMade (recordUnmarshalText .simple dPackage.n asciiPrint 5 "P".toList (dPart.map liftField))

theorem dUnmarshalText_eq : recordUnmarshalText .simple dPackage.n asciiPrint 5 "D".toList (dFields.map liftField) = .ok dUnmarshalText :=
  ofMade_of (by decide +kernel)
theorem pUnmarshalText_eq : recordUnmarshalText .simple dPackage.n asciiPrint 5 "P".toList (dPart.map liftField) = .ok pUnmarshalText :=
  ofMade_of (by decide +kernel)

def readsB (P : Spec.GoD.Package) (n : Nat) (j : JTree) (t : Ty) (cur v : Val) : Bool := match unmarshal P.nm P.n.env n j t cur with
  | .ok v' => valEq v' v
  | .error _ => false

theorem reads_of {P : Spec.GoD.Package} {n : Nat} {j : JTree} {t : Ty} {cur v : Val} (h : readsB P n j t cur v = true) : unmarshal P.nm P.n.env n j t cur = .ok v := by
  unfold readsB at h
  split at h
  · rename_i v' e; rw [e, valEq_eq h]
  · cases h

/-- The text of `UnmarshalJSON` of `P`, run on `{"q": "x"}`: the other field gets its default. -/
theorem p_reads : ∃ (bodies : QName → List Spec.GoD.St) (body : List USt) (n m : Nat),
    tokens pUnmarshalText = some (unmarshalToks "r".toList (.pointer (.named "P".toList)) body) ∧ UAccepted body ∧
    urun dPackage (theUnmarshal dPackage n) (makes dPackage bodies m) ⟨[], [], none⟩ (.ref qDP) (.obj [("q".toList, .str "x".toList)])
      { r := .record [.int 9, .string []] } body = .ok (.record [.int 3, .string (txt "x")]) := by
  obtain ⟨bodies, body, -, h1, h2, h3⟩ := record_unmarshal_code asciiPrint_printing dPackage_legal dPackage_emitted (q := qDP) (d := pDef) rfl rfl (k := 5) pUnmarshalText_eq
  obtain ⟨n, m, h⟩ := ((h3 ⟨[], [], none⟩ (.obj [("q".toList, .str "x".toList)]) (.record [.int 9, .string []])
    (fun vs e => by cases e; rfl)).1 (.record [.int 3, .string (txt "x")])).2 ⟨5, reads_of (by decide +kernel)⟩
  exact ⟨bodies, body, n, m, h1 [.int 3, .string []] (new_of 5 (by decide +kernel)), h2, h⟩

/-- A text without the field that has no default is refused. -/
theorem p_refuses : ∃ (bodies : QName → List Spec.GoD.St) (body : List USt) (n m : Nat),
    urun dPackage (theUnmarshal dPackage n) (makes dPackage bodies m) ⟨[], [], none⟩ (.ref qDP) (.obj [("p".toList, .num (.int false 1))])
      { r := .record [.int 9, .string []] } body = .error .refused := by
  obtain ⟨bodies, body, -, -, -, h3⟩ := record_unmarshal_code asciiPrint_printing dPackage_legal dPackage_emitted (q := qDP) (d := pDef) rfl rfl (k := 5) pUnmarshalText_eq
  obtain ⟨n, m, h⟩ := (h3 ⟨[], [], none⟩ (.obj [("p".toList, .num (.int false 1))]) (.record [.int 9, .string []])
    (fun vs e => by cases e; rfl)).2.2 ⟨5, by rfl⟩
  exact ⟨bodies, body, n, m, h⟩

/-- The record with a field of every kind: its two texts are programs. -/
example : ∃ mb ub, tokens (recordMarshalText .simple asciiPrint "D".toList (dFields.map liftField)) = some (marshalToks "r".toList (.named "D".toList) mb) ∧
    tokens dUnmarshalText = some (unmarshalToks "r".toList (.pointer (.named "D".toList)) ub) := by
  obtain ⟨mb, h, -⟩ := record_marshal_code asciiPrint_printing dPackage_legal (q := qD) (d := dDef) rfl rfl
  obtain ⟨bodies, ub, -, h1, -⟩ := record_unmarshal_code asciiPrint_printing dPackage_legal dPackage_emitted (q := qD) (d := dDef) rfl rfl (k := 5) dUnmarshalText_eq
  exact ⟨mb, ub, h, h1 dVals dPackage_new⟩

/-- The theorems about unions apply: a union of null, a named type and a string. -/
def uTy : PTy := .union [] [.prim .null .null, .ref qDP, .prim .string .null] []

theorem u_legal : UnionLegal dPackage [.prim .null .null, .ref qDP, .prim .string .null] :=
  ⟨by decide +kernel, by decide, by decide +kernel⟩

example : ∃ body, tokens (unionMarshalText .simple dPackage.n (uTy.goName .simple dPackage.n) (uTy.goType .simple dPackage.n) [.prim .null .null, .ref qDP, .prim .string .null]) =
      some (marshalToks "r".toList (.pointer (.named "UnionNullPString".toList)) body) ∧
    mrun dPackage (theMarshal dPackage) ⟨[], [], none⟩ uTy (.union 2 (some (.string (txt "x")))) {} body = .ok (.obj [("string".toList, .str "x".toList)]) ∧
    mrun dPackage (theMarshal dPackage) ⟨[], [], none⟩ uTy .nil {} body = .ok .null := by
  obtain ⟨body, h1, -, h2, h3⟩ := union_marshal_code (P := dPackage) (name := []) (ds := []) (namedTy_of (by decide +kernel)) u_legal
  refine ⟨body, h1, (h2 _ _ _).trans ?_, (h3 (by decide +kernel) _).trans ?_⟩
  · have : marshalsB dPackage.n.env uTy.erase (.union 2 (some (.string (txt "x")))) (.obj [("string".toList, .str "x".toList)]) = true := by decide +kernel
    have := marshals_of this
    unfold Marshals jsonEncode at this
    obtain ⟨j, e, h⟩ := jbind_inv this
    split at h
    · cases h; exact e
    · cases h
  · rfl

example : ∃ body, tokens (unionUnmarshalText .simple dPackage.n (uTy.goType .simple dPackage.n) [.prim .null .null, .ref qDP, .prim .string .null]) =
      some (unmarshalToks "r".toList (.pointer (.named "UnionNullPString".toList)) body) ∧
    urun dPackage (theUnmarshal dPackage 5) (fun _ => .error .build) ⟨[], [], none⟩ uTy (.obj [("string".toList, .str "x".toList)]) { r := struct dPackage uTy .nil } body =
      .ok (.union 2 (some (.string (txt "x")))) := by
  obtain ⟨body, h1, -, h2⟩ := union_unmarshal_code (P := dPackage) (name := []) (ds := []) (namedTy_of (by decide +kernel)) u_legal
  exact ⟨body, h1, (h2 _ _ _ 5 .nil (fun e => by cases e)).trans (reads_of (by decide +kernel))⟩

/-- The theorems about enums and fixed apply. -/
example : (["A".toList, "B".toList].map (symbolGoName dPackage.nm (PDef.goName .simple ⟨qDE, [], .enum ["A".toList, "B".toList] [] [], []⟩))).Nodup := by decide +kernel
example : dPackage.n.find qDE = some ⟨qDE, [], .enum ["A".toList, "B".toList] [] [], []⟩ := rfl
example : dPackage.n.find qDF = some ⟨qDF, [], .fixed 2, []⟩ := rfl

end Verif.Props
