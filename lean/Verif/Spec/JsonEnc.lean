import Verif.Spec.Default
import Verif.Schema.Names
/-
Avro's JSON encoding: the Avro specification, "Data Serialization and Deserialization", "JSON Encoding".
-/
namespace Verif

/-- A number as a JSON text writes it. -/
inductive JNum where
  /-- digits only, perhaps after a minus sign -/
  | int (neg : Bool) (n : Nat)
  /-- with a fraction or an exponent: the number `n / d`, perhaps after a minus sign -/
  | frac (neg : Bool) (n d : Nat)

/-- There is a minus sign. -/
def JNum.neg : JNum → Bool
  | .int s _ => s
  | .frac s _ _ => s

/-- Numerator and denominator, without the sign. -/
def JNum.num : JNum → Nat
  | .int _ n => n
  | .frac _ n _ => n
def JNum.den : JNum → Nat
  | .int _ _ => 1
  | .frac _ _ d => d

/-- The value of a JSON text. Strings are the characters they denote, objects the entries in the
order of the text. -/
inductive JTree where
  | null
  | bool (b : Bool)
  | num (x : JNum)
  | str (s : Str)
  | arr (js : List JTree)
  | obj (kvs : List (Str × JTree))

mutual
/-- How deep arrays and objects are nested. -/
def JTree.depth : JTree → Nat
  | .arr js => depths js + 1
  | .obj kvs => depthsOf kvs + 1
  | _ => 0
def JTree.depths : List JTree → Nat
  | [] => 0
  | j :: js => max j.depth (depths js)
def JTree.depthsOf : List (Str × JTree) → Nat
  | [] => 0
  | (_, j) :: kvs => max j.depth (depthsOf kvs)
end

/-- The float without its sign. -/
def Fmt.abs (F : Fmt) (b : BitVec F.width) : BitVec F.width := BitVec.ofNat F.width (F.low b)

/-- The float `b` is the written number: nearest to it (`Near`), with its sign, zero included. -/
structure Fmt.Reads (F : Fmt) (x : JNum) (b : BitVec F.width) : Prop where
  sign : F.neg b = x.neg
  den : 0 < x.den
  near : F.Near x.num x.den (F.abs b)

/-- The name of a type where it is a member of a union: the primitive's or the complex type's name, or
the full name of a named type. -/
inductive JsonName (env : Env) : Ty → Str → Prop
  | null : JsonName env .null "null".toList
  | bool : JsonName env .bool "boolean".toList
  | int : JsonName env .int "int".toList
  | long : JsonName env .long "long".toList
  | float : JsonName env .float "float".toList
  | double : JsonName env .double "double".toList
  | bytes : JsonName env .bytes "bytes".toList
  | string : JsonName env .string "string".toList
  | array {t} : JsonName env (.array t) "array".toList
  | map {t} : JsonName env (.map t) "map".toList
  | ref {q d} : env.find q = some d → JsonName env (.ref q) d.name.str

/-- The first of the names that is a key of the object. -/
def firstMember {α : Type} (kvs : List (Str × α)) : List Str → Option α
  | [] => none
  | k :: ks => match member kvs k with
    | some j => some j
    | none => firstMember kvs ks

/-- What the object has for a field: the entry of its name; if `ext`, else that of an alias. -/
def Field.inJson (f : Field) (ext : Bool) (kvs : List (Str × JTree)) : Option JTree :=
  firstMember kvs (f.name :: if ext then f.aliases else [])

/-- `j` is the JSON encoding of the value `v` of type `t`.

`JsonOf env false` is Avro's encoding. `JsonOf env true` also has what the generated code is meant to
read: entries under an alias of the field, records without entries of fields that have a
default (`DefaultMeans env true`, the defaults that the code sets as it should), entries that belong to no field,
and strings that are no symbol for an enum with a default. -/
inductive JsonOf (env : Env) (ext : Bool) : JTree → Ty → Val → Prop
  | null : JsonOf env ext .null .null .null
  | bool {b} : JsonOf env ext (.bool b) .bool (.bool b)
  | int {s : Bool} {n : Nat} {z : Int} : z = (if s then -(n : Int) else n) → -2 ^ 31 ≤ z → z < 2 ^ 31 →
      JsonOf env ext (.num (.int s n)) .int (.int (BitVec.ofInt 32 z))
  | long {s : Bool} {n : Nat} {z : Int} : z = (if s then -(n : Int) else n) → -2 ^ 63 ≤ z → z < 2 ^ 63 →
      JsonOf env ext (.num (.int s n)) .long (.long (BitVec.ofInt 64 z))
  | float {x b} : single.Reads x b → JsonOf env ext (.num x) .float (.float b)
  | double {x b} : double.Reads x b → JsonOf env ext (.num x) .double (.double b)
  /-- code points 0-255 are bytes -/
  | bytes {s : Str} : (∀ c ∈ s, c.toNat < 256) →
      JsonOf env ext (.str s) .bytes (.bytes (s.map fun c => BitVec.ofNat 8 c.toNat))
  | string {s : Str} : JsonOf env ext (.str s) .string (.string (utf8 s))
  | enum {q d syms e s i} : env.find q = some d → d.kind = .enum syms e → syms[i]? = some s → (∀ i' < i, syms[i']? ≠ some s) →
      JsonOf env ext (.str s) (.ref q) (.enum (BitVec.ofNat 32 i))
  /-- `e` is the enum's default, empty if there is none -/
  | enumDefault {q d syms e s i} : ext = true → env.find q = some d → d.kind = .enum syms e → s ∉ syms → e ≠ [] →
      syms[i]? = some e → JsonOf env ext (.str s) (.ref q) (.enum (BitVec.ofNat 32 i))
  | fixed {q d} {n : Int} {s : Str} : env.find q = some d → d.kind = .fixed n → (∀ c ∈ s, c.toNat < 256) →
      (s.length : Int) = n → JsonOf env ext (.str s) (.ref q) (.fixed (s.map fun c => BitVec.ofNat 8 c.toNat))
  | array {js t} {vs : List Val} : js.length = vs.length →
      (∀ (i : Nat) j v, js[i]? = some j → vs[i]? = some v → JsonOf env ext j t v) →
      JsonOf env ext (.arr js) (.array t) (.array vs)
  | map {kvs : List (Str × JTree)} {t} {vs : List Val} : (kvs.map Prod.fst).Nodup → kvs.length = vs.length →
      (∀ (i : Nat) kv v, kvs[i]? = some kv → vs[i]? = some v → JsonOf env ext kv.2 t v) →
      JsonOf env ext (.obj kvs) (.map t) (.map (mapOf ((kvs.map fun kv => utf8 kv.1).zip vs)))
  /-- a null in a union -/
  | unionNull {ts t} : t ∈ ts → t = .null → JsonOf env ext .null (.union ts) .nil
  /-- another member: an object with the member's name as the only key -/
  | union {ts : List Ty} {t k j v} {i : Nat} : ts[i]? = some t → t ≠ .null → JsonName env t k →
      (∀ i' t', i' < i → ts[i']? = some t' → ¬JsonName env t' k) → i < 2 ^ 63 → JsonOf env ext j t v →
      JsonOf env ext (.obj [(k, j)]) (.union ts) (.union (BitVec.ofNat 64 i) (some v))
  | record {kvs : List (Str × JTree)} {q d fs} {vs : List Val} : env.find q = some d → d.kind = .record fs →
      (kvs.map Prod.fst).Nodup → (ext = false → ∀ kv ∈ kvs, ∃ f ∈ fs, f.name = kv.1) → fs.length = vs.length →
      (∀ (i : Nat) f v j, fs[i]? = some f → vs[i]? = some v → f.inJson ext kvs = some j → JsonOf env ext j f.ty v) →
      (∀ (i : Nat) f v, fs[i]? = some f → vs[i]? = some v → f.inJson ext kvs = none →
        ext = true ∧ ∃ j, f.dflt = some j ∧ DefaultMeans env true j f.ty v) →
      JsonOf env ext (.obj kvs) (.ref q) (.record vs)

mutual
/-- The value can be written in JSON: floats are finite, strings and the keys of maps are text (UTF-8). -/
def Val.Textual : Val → Prop
  | .float b => Verif.single.IsFinite b
  | .double b => Verif.double.IsFinite b
  | .string bs => ∃ s, bs = utf8 s
  | .array vs => AllTextual vs
  | .map es => EntriesTextual es
  | .union _ (some v) => v.Textual
  | .record vs => AllTextual vs
  | _ => True
def Val.AllTextual : List Val → Prop
  | [] => True
  | v :: vs => v.Textual ∧ AllTextual vs
def Val.EntriesTextual : List (List Byte × Val) → Prop
  | [] => True
  | (k, v) :: es => (∃ s, k = utf8 s) ∧ v.Textual ∧ EntriesTextual es
end

mutual
/-- All floats in the value are numbers. -/
def Val.Finite : Val → Prop
  | .float b => Verif.single.IsFinite b
  | .double b => Verif.double.IsFinite b
  | .array vs => AllFinite vs
  | .map es => EntriesFinite es
  | .union _ (some v) => v.Finite
  | .record vs => AllFinite vs
  | _ => True
def Val.AllFinite : List Val → Prop
  | [] => True
  | v :: vs => v.Finite ∧ AllFinite vs
def Val.EntriesFinite : List (List Byte × Val) → Prop
  | [] => True
  | (_, v) :: es => v.Finite ∧ EntriesFinite es
end

mutual
/-- How deep arrays, maps, records and members of unions are nested. -/
def Val.nesting : Val → Nat
  | .array vs => nestings vs + 1
  | .map es => nestingsOf es + 1
  | .union _ (some v) => v.nesting + 1
  | .record vs => nestings vs + 1
  | _ => 0
def Val.nestings : List Val → Nat
  | [] => 0
  | v :: vs => max v.nesting (nestings vs)
def Val.nestingsOf : List (List Byte × Val) → Nat
  | [] => 0
  | (_, v) :: es => max v.nesting (nestingsOf es)
end

/-- The members of the union have names, all different. -/
def UnionNames (env : Env) (ts : List Ty) : Prop :=
  (∀ t ∈ ts, ∃ k, JsonName env t k) ∧
  ∀ (i i' : Nat) t t' k, ts[i]? = some t → ts[i']? = some t' → JsonName env t k → JsonName env t' k → i = i'

mutual
/-- All unions in the type are such. -/
def Ty.Named (env : Env) : Ty → Prop
  | .array t => t.Named env
  | .map t => t.Named env
  | .union ts => UnionNames env ts ∧ Ty.AllNamed env ts
  | _ => True
def Ty.AllNamed (env : Env) : List Ty → Prop
  | [] => True
  | t :: ts => t.Named env ∧ Ty.AllNamed env ts
end

/-- All unions in the records of the schema are such. -/
def FieldsNamed (env : Env) : Prop :=
  ∀ q d fs f, env.find q = some d → d.kind = .record fs → f ∈ fs → f.ty.Named env

/-- A variable of type `t` that holds `cur` is fit for reading a value: all maps in it are empty. `nil` stands
for a nil slice, map or pointer, and for a record whose fields have Go's zero values. -/
inductive Blank (env : Env) : Ty → Val → Prop
  | null : Blank env .null .null
  | bool {c} : Blank env .bool c
  | int {c} : Blank env .int c
  | long {c} : Blank env .long c
  | float {c} : Blank env .float c
  | double {c} : Blank env .double c
  | bytes {c} : Blank env .bytes c
  | string {c} : Blank env .string c
  | enum {q d syms e c} : env.find q = some d → d.kind = .enum syms e → Blank env (.ref q) c
  | fixed {q d n bs} : env.find q = some d → d.kind = .fixed n → bs.length = n.toNat → Blank env (.ref q) (.fixed bs)
  | arrayNil {t} : Blank env (.array t) .nil
  | array {t} {vs : List Val} : (∀ v ∈ vs, Blank env t v) → Blank env (.array t) (.array vs)
  | mapNil {t} : Blank env (.map t) .nil
  | map {t} : Blank env (.map t) (.map [])
  | unionNil {ts} : Blank env (.union ts) .nil
  | unionNew {ts tag} : Blank env (.union ts) (.union tag none)
  | union {ts tag v} : (∀ t, ts[tag.toNat]? = some t → Blank env t v) → Blank env (.union ts) (.union tag (some v))
  | recordZero {q d fs} : env.find q = some d → d.kind = .record fs → Blank env (.ref q) .nil
  | record {q d fs} {vs : List Val} : env.find q = some d → d.kind = .record fs →
      (∀ (i : Nat) f v, fs[i]? = some f → vs[i]? = some v → Blank env f.ty v) → Blank env (.ref q) (.record vs)

/-- The fields of a record have different names. -/
def FieldNamesApart (env : Env) : Prop :=
  ∀ q d fs, env.find q = some d → d.kind = .record fs → (fs.map Field.name).Nodup

/-- `j` is no JSON encoding of any value of type `t`: somewhere a value is of the wrong kind, a number not in
the range or not an integer, a symbol unknown, a field missing that has no default, or an object that does not
name a member of its union. -/
inductive Wrong (env : Env) : JTree → Ty → Prop
  | bool {b t} : t ≠ .bool → Wrong env (.bool b) t
  | num {x t} : t ≠ .int → t ≠ .long → t ≠ .float → t ≠ .double → Wrong env (.num x) t
  | str {s t} : t ≠ .bytes → t ≠ .string → (∀ q d, t = .ref q → env.find q = some d → ∃ fs, d.kind = .record fs) →
      Wrong env (.str s) t
  | arr {js t} : (∀ u, t ≠ .array u) → Wrong env (.arr js) t
  | obj {kvs t} : t ≠ .null → (∀ u, t ≠ .map u) → (∀ ts, t ≠ .union ts) →
      (∀ q d fs, t = .ref q → env.find q = some d → d.kind ≠ .record fs) → Wrong env (.obj kvs) t
  /-- null for a union without null -/
  | null {ts} : Ty.null ∉ ts → Wrong env .null (.union ts)
  | int {s : Bool} {n : Nat} : ¬(-2 ^ 31 ≤ (if s then -(n : Int) else n) ∧ (if s then -(n : Int) else n) < 2 ^ 31) →
      Wrong env (.num (.int s n)) .int
  | long {s : Bool} {n : Nat} : ¬(-2 ^ 63 ≤ (if s then -(n : Int) else n) ∧ (if s then -(n : Int) else n) < 2 ^ 63) →
      Wrong env (.num (.int s n)) .long
  | intFrac {s n d} : Wrong env (.num (.frac s n d)) .int
  | longFrac {s n d} : Wrong env (.num (.frac s n d)) .long
  /-- too great for every finite float -/
  | float {x} : 0 < x.den → (∀ b, ¬single.Reads x b) → Wrong env (.num x) .float
  | double {x} : 0 < x.den → (∀ b, ¬double.Reads x b) → Wrong env (.num x) .double
  | symbol {q d syms s} : env.find q = some d → d.kind = .enum syms [] → s ∉ syms → Wrong env (.str s) (.ref q)
  /-- no entry, no default -/
  | missing {kvs q d fs f} : env.find q = some d → d.kind = .record fs → f ∈ fs → f.dflt = none →
      (∀ kv ∈ kvs, kv.1 ≠ f.name ∧ kv.1 ∉ f.aliases) → Wrong env (.obj kvs) (.ref q)
  /-- two keys in a union -/
  | keys {kvs ts a b} : a ∈ kvs → b ∈ kvs → a.1 ≠ b.1 → Wrong env (.obj kvs) (.union ts)
  /-- no key of a member; (the first) null has none -/
  | unknown {kvs} {ts : List Ty} : (∀ (i : Nat) t, ts[i]? = some t → t = .null ∧ (∀ i' < i, ts[i']? ≠ some .null) ∨
      ∀ kv ∈ kvs, ¬JsonName env t kv.1) → Wrong env (.obj kvs) (.union ts)
  | item {js j t} : j ∈ js → Wrong env j t → Wrong env (.arr js) (.array t)
  | entry {kvs k j t} : (k, j) ∈ kvs → Wrong env j t → Wrong env (.obj kvs) (.map t)
  | member {ts : List Ty} {t k j} {i : Nat} : ts[i]? = some t → t ≠ .null → JsonName env t k →
      (∀ i' t', i' < i → ts[i']? = some t' → ¬JsonName env t' k) → Wrong env j t → Wrong env (.obj [(k, j)]) (.union ts)
  | field {kvs q d fs f j} : env.find q = some d → d.kind = .record fs → f ∈ fs → (kvs.map Prod.fst).Nodup →
      f.inJson true kvs = some j → Wrong env j f.ty → Wrong env (.obj kvs) (.ref q)

end Verif
