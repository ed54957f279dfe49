import Verif.Gen.Val
/-
Variables of generated Go types in memory. A struct lies in the variable that holds it; slices, maps
and pointers refer to objects, so that two variables may refer to the same one.
-/
namespace Verif

/-- What a variable holds. -/
inductive Var where
  /-- nothing that has been assigned: what is there is not described -/
  | junk
  /-- a value that is copied when it is assigned: `bool`, a number, a `string`, a `[n]byte`, an enum,
  the nil `*types.NullVal`; and a `[]byte`, whose bytes nothing changes -/
  | prim (v : Val)
  /-- a nil pointer, or a nil slice -/
  | nil
  /-- a slice: the first `n` items of the array at the address `a` -/
  | slice (a n : Nat)
  /-- a map, at the address `a` -/
  | map (a : Nat)
  /-- a pointer to the variable at the address `a` -/
  | ptr (a : Nat)
  /-- a struct: `UnionType`, if it has one, and its other fields; also an array, with its items -/
  | struct (tag : BitVec 64) (fs : List Var)

/-- An object in memory: a variable (or an array), the entries of a map in key order, or the fields
`keys` and `values` of a `MapXWrapper`. -/
inductive MObj where
  | var (v : Var)
  | map (es : List (List Byte × Var))
  | wrapper (keys : Option (List (List Byte))) (vals : Var)

/-- The objects, by address. Nothing is ever freed. -/
abbrev Mem := List MObj

section
variable (h : Mem)

mutual
/-- In memory `h`, a variable that holds `v` shows the value `x`, and what it refers to are the objects
`fp`: each is listed once for every place where it is used. -/
def VarShows : Val → Var → List Nat → Prop
  | .array xs, v, fp => ∃ a cs fps, v = .slice a xs.length ∧ h[a]? = some (.var (.struct 0 cs)) ∧
      VarsShow xs (cs.take xs.length) fps ∧ fp = a :: fps
  | .map es, v, fp => ∃ a ms fps, v = .map a ∧ h[a]? = some (.map ms) ∧ EntriesShow es ms fps ∧ fp = a :: fps
  | .record xs, v, fp => ∃ tag vs, v = .struct tag vs ∧ VarsShow xs vs fp
  | .union tag x, v, fp => (∃ vs, v = .struct tag vs ∧ MemberShows x tag vs fp) ∨
      ∃ a vs fps, v = .ptr a ∧ h[a]? = some (.var (.struct tag vs)) ∧ MemberShows x tag vs fps ∧ fp = a :: fps
  | .nil, v, fp => v = .nil ∧ fp = []
  | x, v, fp => v = .prim x ∧ fp = []
/-- The items of an array, or the fields of a record. -/
def VarsShow : List Val → List Var → List Nat → Prop
  | [], vs, fp => vs = [] ∧ fp = []
  | x :: xs, vs, fp => ∃ v vs' f g, vs = v :: vs' ∧ VarShows x v f ∧ VarsShow xs vs' g ∧ fp = f ++ g
/-- The entries of a map. -/
def EntriesShow : List (List Byte × Val) → List (List Byte × Var) → List Nat → Prop
  | [], ms, fp => ms = [] ∧ fp = []
  | (k, x) :: es, ms, fp => ∃ v ms' f g, ms = (k, v) :: ms' ∧ VarShows x v f ∧ EntriesShow es ms' g ∧ fp = f ++ g
/-- The field of a union that `UnionType` selects. -/
def MemberShows : Option Val → BitVec 64 → List Var → List Nat → Prop
  | none, _, _, fp => fp = []
  | some x, tag, vs, fp => ∃ j v, BitVec.ofInt 64 (j : Nat) = tag ∧ vs[j]? = some v ∧ VarShows x v fp
end
end

/-- The memory `h'` is `h` with more objects in it. -/
def Mem.Extends (h' h : Mem) : Prop := ∃ new, h' = h ++ new
end Verif
