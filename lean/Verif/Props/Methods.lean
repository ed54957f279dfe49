import Verif.Gen.MethodsMatch
import Verif.Props.Memory
import Verif.Props.Code
/-
Property C99: the methods of generated targets, run as the Go programs they are, do what decoding needs.

The other theorems about decoding, C97 among them, describe by definitions what `Get`, `AppendArray`, `AppendMap`,
`NullField`, `HintSize`, `Finalize` and the setters of generated types do. Here these methods are programs: lists of
statements (Gen/Methods), with the meaning that Go gives such statements (Spec/GoTarget).

* `packOf nm n ts lim grow`: the package with what is generated for the types `ts`: structs, arrays of bytes, wrappers,
  constructors and methods.
* `DeserializesWith σ P dflt nm n root w rd h v rd' h'`: `DeserializeXFromSchema` of that package is called in memory `h`.
-/
namespace Verif
open Spec.GoT
open Spec.Go (goTypeOf nullTy GoTy Within)

/-! ### Packages -/

/-- The size of the array of bytes of a fixed, templates/fixed.go:21. -/
def PTy.bytes (n : NS) : PTy → Option Nat
  | .ref q => match n.find q with
    | none => none
    | some d => match d.kind with
      | .fixed k => some k.toNat
      | _ => none
  | _ => none

/-- The function that makes a value. -/
def PTy.maker (nm : Namer) (n : NS) (t : PTy) : Option Str :=
  match t.ctor nm n with
  | some (.call f) => some f
  | _ => none

/-- The package with what is generated for these types. The body of a constructor is not a program here: it does
what Gen/Memory says. -/
def packOf (nm : Namer) (n : NS) (ts : List PTy) (lim : Nat) (grow : Nat → Nat) : Pack where
  structs T := (ts.find? fun t => (t.struct nm n).isSome && decide (t.goName nm n = T)).bind fun t => t.struct nm n
  arrays T := (ts.find? fun t => (t.bytes n).isSome && decide (t.goName nm n = T)).bind fun t => t.bytes n
  keyed W := ts.any fun t => t.isMap && decide (t.wrapper nm n = some W)
  funcs f := (ts.find? fun t => decide (t.maker nm n = some f)).map fun t => (goTypeOf nm n t, memNew n.env t.erase)
  methods T m := (ts.find? fun t => !(t.methods nm n).isEmpty && decide (t.holder nm n = T)).bind fun t =>
    (t.methods nm n).find? fun f => decide (f.name = m)
  lim := lim
  grow := grow

/-- `SetDefault` of the records of the package: it does what Gen/Memory says. -/
def defaultsOf (nm : Namer) (n : NS) (ts : List PTy) (dv : Field → Val) (T : Str) : Option (Place → Int → Mem → Except Err Mem) :=
  ts.findSome? fun t => match t with
    | .ref q => match n.find q with
      | none => none
      | some d => match d.kind with
        | .record fs _ => if d.goName nm = T then some fun p i h => memOnly (memSetDefault n.env dv (.record (fs.map PField.erase) p, h) i)
          else none
        | _ => none
    | _ => none

/-- All names are declared, and no name is declared twice with different meanings, as in every package that the Go
compiler accepts. The fields of a struct have different names, none is `UnionType`, and no wrapper has the name of
that in templates/bytes.go. -/
structure OneMeaning (nm : Namer) (n : NS) (ts : List PTy) : Prop where
  resolved : ∀ q, .ref q ∈ ts → ∃ d, n.find q = some d
  methods : ∀ t ∈ ts, ∀ u ∈ ts, t.methods nm n ≠ [] → u.methods nm n ≠ [] → t.holder nm n = u.holder nm n → t.methods nm n = u.methods nm n
  wrappers : ∀ t ∈ ts, ∀ u ∈ ts, (t.wrapper nm n).isSome → t.wrapper nm n = u.wrapper nm n → t.isMap = u.isMap
  own : ∀ t ∈ ts, (∀ p d, t ≠ .prim p d) → t.wrapper nm n ≠ some (.named "BytesWrapper".toList)
  structs : ∀ t ∈ ts, ∀ u ∈ ts, (t.struct nm n).isSome → (u.struct nm n).isSome → t.goName nm n = u.goName nm n → t.struct nm n = u.struct nm n
  fields : ∀ t ∈ ts, ∀ s, t.struct nm n = some s → (s.fields.map (·.1)).Nodup ∧ "UnionType".toList ∉ s.fields.map (·.1)
  arrays : ∀ t ∈ ts, ∀ u ∈ ts, (t.bytes n).isSome → (u.bytes n).isSome → t.goName nm n = u.goName nm n → t.bytes n = u.bytes n
  makers : ∀ t ∈ ts, ∀ u ∈ ts, (t.maker nm n).isSome → t.maker nm n = u.maker nm n → goTypeOf nm n t = goTypeOf nm n u ∧ t.erase = u.erase

section
variable {nm : Namer} {n : NS} {ts : List PTy} {lim : Nat} {grow : Nat → Nat}

/-- The first of some types that passes a test, when all that pass it are alike. -/
theorem first_of {α β : Type} {l : List α} {p : α → Bool} {a : α} {f : α → β} (ha : a ∈ l) (hp : p a = true) (hu : ∀ b ∈ l, p b = true → f b = f a) :
    ∃ b, l.find? p = some b ∧ f b = f a := by
  have hs : (l.find? p).isSome := List.find?_isSome.2 ⟨a, ha, hp⟩
  obtain ⟨b, hb⟩ := Option.isSome_iff_exists.1 hs
  exact ⟨b, hb, hu b (List.mem_of_find?_eq_some hb) (List.find?_some hb)⟩

/-- The names of the methods of a type are different. -/
theorem methods_nodup (t : PTy) : ((t.methods nm n).map (·.name)).Nodup := by
  cases t with
  | prim p d => exact List.nodup_nil
  | array t d => exact (by decide +kernel : (List.map String.toList ["SetBoolean", "SetInt", "SetLong", "SetFloat", "SetDouble", "SetBytes", "SetString",
      "SetUnionElem", "Get", "AppendMap", "Finalize", "SetDefault", "HintSize", "NullField", "AppendArray"]).Nodup)
  | map t d => exact (by decide +kernel : (List.map String.toList ["SetBoolean", "SetInt", "SetLong", "SetFloat", "SetDouble", "SetBytes", "SetString",
      "SetUnionElem", "Get", "SetDefault", "HintSize", "NullField", "Finalize", "AppendMap", "AppendArray"]).Nodup)
  | union name ts d => exact (by decide +kernel : (List.map String.toList ["SetBoolean", "SetInt", "SetFloat", "SetDouble", "SetBytes", "SetString",
      "SetLong", "Get", "NullField", "HintSize", "SetDefault", "AppendMap", "AppendArray", "Finalize"]).Nodup)
  | ref q =>
    simp only [PTy.methods]
    cases n.find q with
    | none => exact List.nodup_nil
    | some d =>
      simp only
      cases d.kind with
      | record fs doc => exact (by decide +kernel : (List.map String.toList ["SetBoolean", "SetInt", "SetLong", "SetFloat", "SetDouble", "SetBytes",
          "SetString", "SetUnionElem", "Get", "NullField", "AppendMap", "AppendArray", "HintSize", "Finalize"]).Nodup)
      | enum ss doc dv => exact (by decide +kernel : (List.map String.toList ["SetBoolean", "SetInt", "SetLong", "SetFloat", "SetUnionElem", "SetDouble",
          "SetBytes", "SetString", "Get", "SetDefault", "AppendMap", "AppendArray", "NullField", "HintSize", "Finalize"]).Nodup)
      | fixed k => exact (by decide +kernel : (List.map String.toList ["SetBoolean", "SetInt", "SetLong", "SetFloat", "SetDouble", "SetBytes", "SetString",
          "SetUnionElem", "Get", "AppendMap", "AppendArray", "NullField", "HintSize", "Finalize", "SetDefault"]).Nodup)

/-- The package made of the code of some types holds what is generated for each of them. -/
theorem packOf_carries (ha : OneMeaning nm n ts) {t : PTy} (ht : t ∈ ts) : Carries (packOf nm n ts lim grow) nm n t where
  resolved q e := ha.resolved q (e ▸ ht)
  methods m hm := by
    have hne : t.methods nm n ≠ [] := fun h => by rw [h] at hm; cases hm
    obtain ⟨u, h1, h2⟩ := first_of (p := fun u : PTy => !(u.methods nm n).isEmpty && decide (u.holder nm n = t.holder nm n)) (f := fun u : PTy => u.methods nm n)
      ht (by simp [hne]) (fun u hu hp => by
        simp only [Bool.and_eq_true, Bool.not_eq_true', List.isEmpty_eq_false_iff, decide_eq_true_eq] at hp
        exact ha.methods u hu t ht hp.1 hne hp.2)
    simp only [packOf, h1, Option.bind_some, h2]
    exact find_method (methods_nodup t) hm
  keyed W hW := by
    simp only [packOf]
    cases hm : t.isMap with
    | true => exact List.any_eq_true.2 ⟨t, ht, by simp [hm, hW]⟩
    | false =>
      refine List.any_eq_false.2 fun u hu => ?_
      intro hp
      simp only [Bool.and_eq_true, decide_eq_true_eq] at hp
      have := ha.wrappers t ht u hu (by rw [hW]; rfl) (by rw [hW, hp.2])
      rw [hm, hp.1] at this; cases this
  own W hW hp := by
    have h1 := ha.own t ht hp
    rw [hW] at h1
    have h2 : GoTy.named W ≠ .named "BytesWrapper".toList := fun h => h1 (congrArg some h)
    unfold foreignLeaf
    rw [if_neg (by intro h; cases h), if_neg (by intro h; cases h), if_neg (by intro h; cases h), if_neg (by intro h; cases h),
      if_neg (by intro h; cases h), if_neg (by intro h; cases h), if_neg h2]
  struct s hs := by
    obtain ⟨u, h1, h2⟩ := first_of (p := fun u : PTy => (u.struct nm n).isSome && decide (u.goName nm n = t.goName nm n)) (f := fun u : PTy => u.struct nm n)
      ht (by simp [hs]) (fun u hu hp => by
        simp only [Bool.and_eq_true, decide_eq_true_eq] at hp
        exact ha.structs u hu t ht hp.1 (by rw [hs]; rfl) hp.2)
    refine ⟨?_, ha.fields t ht s hs⟩
    simp only [packOf, h1, Option.bind_some, h2, hs]
  array q d k e hd hk := by
    have hb : t.bytes n = some k.toNat := by subst e; simp only [PTy.bytes, hd, hk]
    obtain ⟨u, h1, h2⟩ := first_of (p := fun u : PTy => (u.bytes n).isSome && decide (u.goName nm n = t.goName nm n)) (f := fun u : PTy => u.bytes n)
      ht (by simp [hb]) (fun u hu hp => by
        simp only [Bool.and_eq_true, decide_eq_true_eq] at hp
        exact ha.arrays u hu t ht hp.1 (by rw [hb]; rfl) hp.2)
    simp only [packOf, h1, Option.bind_some, h2, hb]
  ctor f hf := by
    have hm : t.maker nm n = some f := by simp only [PTy.maker, hf]
    obtain ⟨u, h1, h2⟩ := first_of (p := fun u : PTy => decide (u.maker nm n = some f)) (f := fun u : PTy => (goTypeOf nm n u, u.erase))
      ht (by simp [hm]) (fun u hu hp => by
        simp only [decide_eq_true_eq] at hp
        obtain ⟨e1, e2⟩ := ha.makers u hu t ht (by rw [hp]; rfl) (by rw [hp, hm])
        rw [e1, e2])
    simp only [Prod.mk.injEq] at h2
    simp only [packOf, h1, Option.map_some, h2.1, h2.2]

theorem findSome_first {α β : Type} {f : α → Option β} {b : β} : ∀ {l : List α} {a : α}, a ∈ l → f a = some b → (∀ c ∈ l, ∀ x, f c = some x → x = b) →
    l.findSome? f = some b
  | [], _, h, _, _ => by cases h
  | c :: l, a, h, hf, hu => by
    rw [List.findSome?_cons]
    cases hc : f c with
    | some x => rw [hu c (by simp) x hc]
    | none =>
      rcases List.mem_cons.1 h with rfl | h
      · rw [hf] at hc; cases hc
      · exact findSome_first h hf fun c' hc' => hu c' (by simp [hc'])

theorem defaultsOf_spec (ha : OneMeaning nm n ts) (hc : ∀ t ∈ ts, ∀ u ∈ Props.partsOf n t, u ∈ ts) {t0 : PTy} (h0 : t0 ∈ ts) (dv : Field → Val) :
    Defaulting (defaultsOf nm n ts dv) nm n t0 dv where
  record q d fs doc hw hd hk := by
    have hq := Props.within_closed n hc hw h0
    refine ⟨_, findSome_first (a := PTy.ref q) hq (by simp only [hd, hk, if_true]) ?_, fun p i h => rfl⟩
    intro u hu x hx
    cases u with
    | ref q' =>
      simp only at hx
      cases hd' : n.find q' with
      | none => rw [hd'] at hx; cases hx
      | some d' =>
        rw [hd'] at hx
        simp only at hx
        cases hk' : d'.kind with
        | record fs' doc' =>
          rw [hk'] at hx
          simp only at hx
          by_cases e : d'.goName nm = d.goName nm
          · rw [if_pos e] at hx
            have hm := ha.makers (.ref q') hu (.ref q) hq (by simp only [PTy.maker, PTy.ctor, hd', hk']; rfl)
              (by simp only [PTy.maker, PTy.ctor, hd', hk', hd, hk, e])
            have hqq : q' = q := by
              have := hm.2
              simp only [PTy.erase] at this
              injection this
            subst hqq
            rw [hd] at hd'
            cases hd'
            rw [hk] at hk'
            cases hk'
            cases hx
            rfl
          · rw [if_neg e] at hx; cases hx
        | enum ss doc' dv' => rw [hk'] at hx; cases hx
        | fixed k => rw [hk'] at hx; cases hx
    | prim p d => cases hx
    | array t d => cases hx
    | map t d => cases hx
    | union name ts d => cases hx
  union name us d hw := by
    have hq := Props.within_closed n hc hw h0
    unfold defaultsOf
    rw [List.findSome?_eq_none_iff]
    intro u hu
    cases u with
    | ref q' =>
      simp only
      cases hd' : n.find q' with
      | none => rfl
      | some d' =>
        simp only
        cases hk' : d'.kind with
        | record fs' doc' =>
          simp only
          by_cases e : d'.goName nm = (PTy.union name us d).goName nm n
          · have hs := ha.structs (.ref q') hu (.union name us d) hq (by simp only [PTy.struct, hd', hk']; rfl) rfl (by rw [goName_ref hd', e])
            simp only [PTy.struct, hd', hk'] at hs
            injection hs with hs
            injection hs with _ hs
            cases hs
          · rw [if_neg e]
        | enum ss doc' dv' => rfl
        | fixed k => rfl
    | prim p d => rfl
    | array t d => rfl
    | map t d => rfl
    | union name ts d => rfl
end

/-! ### Decoding -/

/-- The target that `vm.Eval` is given, where `v` is what the new variable `t` at `p` holds: `t` if its type is a
pointer, else `&t`; templates/record.go:52 and 64, union.go:74-78 and 92-96. -/
def PTy.target (nm : Namer) (n : NS) (root : PTy) (v : Var) (p : Place) : Option Gv :=
  match goTypeOf nm n root with
  | .pointer T => match v with
    | .ptr a => some (.ptr T ⟨a, []⟩)
    | _ => none
  | T => some (.ptr T p)

/-- `DeserializeXFromSchema` of a package, templates/record.go:56-66, union.go:85-101, with the methods of the package:
called in memory `h`, `w` the schema of the writer and `root` the type. It returns a nil error, what the variable `t`
holds is `v`, what is left of the input `rd'`, and memory `h'`. -/
def DeserializesWith {R : Type} (σ : Setting R) (P : Pack) (dflt : Str → Option (Place → Int → Mem → Except Err Mem)) (nm : Namer) (n : NS)
    (root : PTy) (w : Schema) (rd : R) (h : Mem) (v : Var) (rd' : R) (h' : Mem) : Prop :=
  ∃ prog f ty make v0 h0 g g', compile σ.ord false w ⟨n.env, root.erase⟩ = .ok prog ∧ root.maker nm n = some f ∧ P.funcs f = some (ty, make) ∧
    make h = (v0, h0) ∧ root.target nm n v0 ⟨h0.length, []⟩ = some g ∧
    Evaluates σ.ro (P.ops dflt) prog rd (g, h0 ++ [.var v0]) (.ok (rd', g', h')) ∧ h'.read ⟨h0.length, []⟩ = some v

/-- The types that `DeserializeX` is generated for: records and unions. -/
def PTy.decodable (n : NS) : PTy → Prop
  | .union _ _ _ => True
  | .ref q => ∃ d fs doc, n.find q = some d ∧ d.kind = .record fs doc
  | _ => False

/-- The target at the start is that of Gen/Memory. -/
theorem target_start {nm : Namer} {n : NS} {root : PTy} (hr : root.decodable n) {v0 : Var} {h h0 : Mem} (hn : memNew n.env root.erase h = (v0, h0)) :
    (∃ f, root.ctor nm n = some (.call f)) ∧ ∃ g tg, root.target nm n v0 ⟨h0.length, []⟩ = some g ∧
      memTarget n.env root.erase ⟨h0.length, []⟩ (h0 ++ [.var v0]) = .ok (tg, h0 ++ [.var v0]) ∧ Points nm n root g tg := by
  cases root with
  | prim p d => exact hr.elim
  | array t d => exact hr.elim
  | map t d => exact hr.elim
  | union name us d =>
    refine ⟨⟨_, rfl⟩, ?_⟩
    by_cases hu : us.any nullTy = true
    · have hu' : (Ty.union (PTy.erases us)).nullable = true := (any_null_erase us).symm.trans hu
      have hv : ∃ a, v0 = .ptr a := by
        simp only [PTy.erase, memNew] at hn
        rw [if_pos hu'] at hn
        cases hn; exact ⟨_, rfl⟩
      obtain ⟨a, rfl⟩ := hv
      refine ⟨.ptr (.named ((PTy.union name us d).goName nm n)) ⟨a, []⟩, .union (PTy.erases us) ⟨a, []⟩, ?_, ?_, .union (.self _) rfl rfl⟩
      · simp only [PTy.target, goTypeOf]
        rw [if_pos hu]
      · simp only [PTy.erase, memTarget]
        rw [if_pos hu']
        have : Mem.read (h0 ++ [.var (.ptr a)]) ⟨h0.length, []⟩ = some (.ptr a) := by simp [Mem.read, Var.at]
        rw [this]
    · have hu' : ¬ (Ty.union (PTy.erases us)).nullable = true := fun h => hu ((any_null_erase us).trans h)
      refine ⟨.ptr (.named ((PTy.union name us d).goName nm n)) ⟨h0.length, []⟩, .union (PTy.erases us) ⟨h0.length, []⟩, ?_, ?_, .union (.self _) rfl rfl⟩
      · simp only [PTy.target, goTypeOf]
        rw [if_neg hu]
      · simp only [PTy.erase, memTarget]
        rw [if_neg hu']
  | ref q =>
    obtain ⟨d, fs, doc, hd, hk⟩ := hr
    have hf : n.env.find q = some d.erase := by rw [env_find, hd]; rfl
    refine ⟨⟨newName (d.goName nm), by simp only [PTy.ctor, hd, hk]⟩, .ptr (.named (d.goName nm)) ⟨h0.length, []⟩,
      .record (fs.map PField.erase) ⟨h0.length, []⟩, ?_, ?_, .record (.self _) hd hk rfl rfl⟩
    · simp only [PTy.target, goTypeOf, goName_ref hd]
    · simp only [PTy.erase, memTarget, hf, PDef.erase, hk]

end Verif

namespace Verif.Props
open Verif
open Spec.GoT

section
variable {nm : Namer} {n : NS} {ts : List PTy} (ha : OneMeaning nm n ts) (hc : ∀ t ∈ ts, ∀ u ∈ partsOf n t, u ∈ ts)
include ha hc

/-- C99. On every target, in every memory, each operation that `vm.Eval` uses ends in the same way with the methods of the
package as by the definitions of Gen/Memory: with the same panic, or with the same memory and a target for the same
variable. -/
theorem methods_match (lim : Nat) (grow : Nat → Nat) (dv : Field → Val) (root : PTy) (hr : root ∈ ts) :
    ((packOf nm n ts lim grow).ops (defaultsOf nm n ts dv)).Matches (memOps n.env lim dv grow) (SameTarget nm n root) :=
  ops_match (P := packOf nm n ts lim grow) (fun _ hu => packOf_carries ha (within_closed n hc hu hr)) (defaultsOf_spec ha hc hr dv)

variable {R : Type} (σ : Setting R) (grow : Nat → Nat) {root : PTy} (hr : root ∈ ts) (hd : root.decodable n) {w : Schema}
include hr hd

/-- C99. Decoding with the generated methods returns what decoding by the definitions of Gen/Memory returns. -/
theorem methods_decode {rd rd' : R} {h h' : Mem} {v : Var} :
    DeserializesWith σ (packOf nm n ts σ.lim grow) (defaultsOf nm n ts σ.dv) nm n root w rd h v rd' h' ↔
      DeserializesIn σ grow w ⟨n.env, root.erase⟩ rd h v rd' h' := by
  have hm := methods_match ha hc σ.lim grow σ.dv root hr
  have hcr := packOf_carries (lim := σ.lim) (grow := grow) ha hr
  constructor
  · rintro ⟨prog, f, ty, make, v0, h0, g, g', h1, h2, h3, h4, h5, h6, h7⟩
    cases hn : memNew n.env root.erase h with
    | mk v1 h1' =>
      obtain ⟨⟨f', e1⟩, g1, tg, e2, e3, e4⟩ := target_start (nm := nm) hd hn
      have hf : f' = f := by simp only [PTy.maker, e1] at h2; exact Option.some.inj h2
      subst hf
      rw [hcr.ctor _ e1] at h3
      cases h3
      rw [hn] at h4
      cases h4
      rw [e2] at h5
      cases h5
      obtain ⟨k1, -, -⟩ := Evaluates.fits (ro := σ.ro) (p := prog) (r := rd) hm (t := (g, h0 ++ [.var v0])) (u := (tg, h0 ++ [.var v0])) ⟨e4, rfl⟩
      obtain ⟨⟨tg', h''⟩, ⟨-, e5⟩, e6⟩ := k1 _ _ h6
      cases e5
      exact ⟨prog, v0, h0, _, _, h1, hn, e3, e6, h7, rfl⟩
  · rintro ⟨prog, v0, h0, s, s', h1, h2, h3, h4, h5, rfl⟩
    obtain ⟨⟨f, e1⟩, g, tg, e2, e3, e4⟩ := target_start (nm := nm) hd h2
    rw [show memTarget _ _ _ _ = _ from e3] at h3
    cases h3
    obtain ⟨-, k2, -⟩ := Evaluates.fits (ro := σ.ro) (p := prog) (r := rd) hm (t := (g, h0 ++ [.var v0])) (u := (tg, h0 ++ [.var v0])) ⟨e4, rfl⟩
    obtain ⟨⟨g', h''⟩, ⟨-, e5⟩, e6⟩ := k2 _ _ h4
    simp only at e5
    subst e5
    exact ⟨prog, f, _, _, v0, h0, g, g', h1, by simp only [PTy.maker, e1], hcr.ctor _ e1, h2, e2, e6, h5⟩

/-- C99, with C97. Where decoding gives a value, the generated code returns it, made of new objects, and leaves all other
memory as it was. -/
theorem methods_return {rd rd' : R} {x : Val} (hx : Deserializes σ w ⟨n.env, root.erase⟩ rd (.value x rd')) (h : Mem) :
    ∃ v h' fp, DeserializesWith σ (packOf nm n ts σ.lim grow) (defaultsOf nm n ts σ.dv) nm n root w rd h v rd' h' ∧
      VarShows h' x v fp ∧ fp.Nodup ∧ (∀ a ∈ fp, h.length ≤ a) ∧ h'.Extends h := by
  obtain ⟨v, h', fp, h1, h2⟩ := returns_new_objects hx grow h
  exact ⟨v, h', fp, (methods_decode ha hc σ grow hr hd).2 h1, h2⟩

/-- C99, with C97, conversely. A call of the generated code that returns a nil error is one of those the other theorems
speak of. -/
theorem methods_outcome {rd rd' : R} {h h' : Mem} {v : Var}
    (hx : DeserializesWith σ (packOf nm n ts σ.lim grow) (defaultsOf nm n ts σ.dv) nm n root w rd h v rd' h') :
    h'.Extends h ∧ ((∃ x fp, Deserializes σ w ⟨n.env, root.erase⟩ rd (.value x rd') ∧ VarShows h' x v fp ∧ fp.Nodup ∧ ∀ a ∈ fp, h.length ≤ a) ∨
      Deserializes σ w ⟨n.env, root.erase⟩ rd .junk) :=
  memory_outcome ((methods_decode ha hc σ grow hr hd).1 hx)

open Spec.Go in
/-- C99, with C96 and C01. The programs of both directions: the method `Serialize` of the package writes a value that is not
the null of an optional union; if it returns a nil error, then its `Deserialize` reads the value back from what was
written, whatever follows, made of new objects. -/
theorem programs_roundtrip_partial (hs : WellFormed ⟨n.env, root.erase⟩) {view : R → List Byte} (hv : σ.ro.Delivers view) (hl : σ.lim < 2 ^ 63)
    {W : Type} (M : Machine W) {taken : W → List Byte} (ho : M.o.Takes taken) (hdecl : Declared nm n ts) (f : Func) (hf : root.writer nm n = some f)
    (g : Value) (x : Val) (hg : Shows nm n g x root) (hx : HasTy n.env σ.lim x root.erase) (hne : x ≠ .nil) (st : World W) :
    ∃ err st', Returns M (packageOf nm n ts) (serializeMethod (root.goName nm n) (goTypeOf nm n root)) [g, .writer] st [.error err] st' ∧
      (err = none → ∃ e, taken st'.w = taken st.w ++ e ∧
        ∀ (rd : R) (rest : List Byte) (h : Mem), view rd = e ++ rest → ∃ v rd' h' fp,
          DeserializesWith σ (packOf nm n ts σ.lim grow) (defaultsOf nm n ts σ.dv) nm n root ⟨n.env, root.erase⟩ rd h v rd' h' ∧ view rd' = rest ∧
          VarShows h' x v fp ∧ fp.Nodup ∧ (∀ a ∈ fp, h.length ≤ a) ∧ h'.Extends h) := by
  obtain ⟨mo, st', h1, h2⟩ := serialize_runs M (packageOf nm n ts) nm n root (fun u hu => package_has nm n ts hdecl u (within_closed n hc hu hr))
    f hf g x hg st
  refine ⟨_, st', h1, fun he => ?_⟩
  have hw := failing_writer ho ⟨n.env, root.erase⟩ M.byteWriter mo x st.w
  refine ⟨wire ⟨n.env, root.erase⟩ M.byteWriter mo x, ?_, fun rd rest h hin => ?_⟩
  · rcases hq : runSer M.o st.w (serialize n.env M.byteWriter mo x root.erase) with ⟨w', _ | er⟩
    · simp only [hq] at hw
      rw [h2, hq]
      exact hw.1
    · rw [hq] at he; cases he
  · obtain ⟨-, rd', h3, h4⟩ := roundtrip_partial hs hv hl M.byteWriter mo hx hne hin
    obtain ⟨v, h', fp, h5, h6⟩ := methods_return ha hc σ grow hr hd h3 h
    exact ⟨v, rd', h', fp, h5, h4, h6⟩
end
end Verif.Props
