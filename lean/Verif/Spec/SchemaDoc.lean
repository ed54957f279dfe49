import Verif.Parser.Ast
import Verif.Spec.Float
/-
Avro schema documents (Apache Avro specification, "Schema Declaration" and "Names"): which types and
definitions a JSON value describes. Written as rules, apart from the parser.

What this implementation does not check is not checked here either: names may be any strings, a
union may repeat a member, a definition may come after its first use.
-/
namespace Verif.Spec
open Verif

/-- The names of the primitive types. -/
def primNames : List (Str × Prim) :=
  [("null".toList, .null), ("boolean".toList, .bool), ("int".toList, .int), ("long".toList, .long),
    ("float".toList, .float), ("double".toList, .double), ("bytes".toList, .bytes),
    ("string".toList, .string)]

/-- A name with a dot is a full name: the namespace is what precedes the last dot. A name without
one is in the enclosing namespace. -/
inductive FullName (enclosing : Str) : Str → QName → Prop
  | dotted (ns n : Str) : '.' ∉ n → FullName enclosing (ns ++ '.' :: n) ⟨ns, n⟩
  | plain (n : Str) : '.' ∉ n → FullName enclosing n ⟨enclosing, n⟩

/-- Two lists related member by member. -/
inductive Each {α β : Type} (R : α → β → Prop) : List α → List β → Prop
  | nil : Each R [] []
  | cons {a b as bs} : R a b → Each R as bs → Each R (a :: as) (b :: bs)

/-- The attribute is the string `s`, or it is absent and `s` is empty. -/
def OptAttr (o : List (Str × Json)) (key s : Str) : Prop :=
  o.lookup key = some (.str s) ∨ (o.lookup key = none ∧ s = [])

/-- The attribute is a list of strings, or it is absent. -/
def OptStrings (o : List (Str × Json)) (key : Str) (ss : List Str) : Prop :=
  o.lookup key = some (.arr (ss.map .str)) ∨ (o.lookup key = none ∧ ss = [])

/-- The full name of a definition. -/
def NameOf (enclosing : Str) (o : List (Str × Json)) (q : QName) : Prop :=
  ∃ name ns, o.lookup "name".toList = some (.str name) ∧ OptAttr o "namespace".toList ns ∧
    FullName (if ns = [] then enclosing else ns) name q

/-- The aliases of a definition, taken in the namespace `ns`. -/
def AliasesOf (ns : Str) (o : List (Str × Json)) (qs : List QName) : Prop :=
  ∃ ss, OptStrings o "aliases".toList ss ∧ Each (FullName ns) ss qs

/-- The size of a fixed: a number, without its fraction. -/
def FixedSize (o : List (Str × Json)) (size : Int) : Prop :=
  o.lookup "size".toList = some (.num size) ∨
    ∃ bits, o.lookup "size".toList = some (.real bits) ∧
      size = (double.scaled bits).tdiv (2 ^ double.scale)

/-- The words that introduce a complex type. -/
def keywords : List Str :=
  ["array".toList, "map".toList, "enum".toList, "fixed".toList, "record".toList]

section
variable (short : Bool)

mutual
/-- The JSON value describes the type; the definitions within it are listed, inner ones first.
`enclosing` is the namespace around it, `name` names the unions when short names are asked for. -/
inductive Describes : (name enclosing : Str) → Json → PTy → List PDef → Prop
  | prim {name enc s p} : (s, p) ∈ primNames → Describes name enc (.str s) (.prim p (.str s)) []
  | named {name enc s q} : (∀ p, (s, p) ∉ primNames) → FullName enc s q →
      Describes name enc (.str s) (.ref q) []
  | union {name enc js ts ds} : DescribesAll name enc js ts ds →
      Describes name enc (.arr js)
        (.union (if short then name ++ "Union".toList else []) ts js) ds
  | array {name enc o j t ds} : o.lookup "type".toList = some (.str "array".toList) →
      o.lookup "items".toList = some j → Describes name enc j t ds →
      Describes name enc (.obj o) (.array t (.obj o)) ds
  | map {name enc o j t ds} : o.lookup "type".toList = some (.str "map".toList) →
      o.lookup "values".toList = some j → Describes name enc j t ds →
      Describes name enc (.obj o) (.map t (.obj o)) ds
  | enum {name enc o q qs ss doc dflt} : o.lookup "type".toList = some (.str "enum".toList) →
      NameOf enc o q → o.lookup "symbols".toList = some (.arr (ss.map .str)) →
      -- the namespace around the definition, not its own: see `Props.enum_alias_elsewhere`
      AliasesOf enc o qs →
      OptAttr o "default".toList dflt → OptAttr o "doc".toList doc →
      Describes name enc (.obj o) (.ref q) [⟨q, qs, .enum ss doc dflt, o⟩]
  | fixed {name enc o q qs size} : o.lookup "type".toList = some (.str "fixed".toList) →
      NameOf enc o q → FixedSize o size → AliasesOf q.ns o qs →
      Describes name enc (.obj o) (.ref q) [⟨q, qs, .fixed size, o⟩]
  | record {name enc o q qs js fs doc ds} :
      o.lookup "type".toList = some (.str "record".toList) →
      NameOf enc o q → o.lookup "fields".toList = some (.arr js) → AliasesOf q.ns o qs →
      OptAttr o "doc".toList doc → DescribesFields q.ns js fs ds →
      Describes name enc (.obj o) (.ref q) (ds ++ [⟨q, qs, .record fs doc, o⟩])
  | primObject {name enc o s p} : o.lookup "type".toList = some (.str s) → (s, p) ∈ primNames →
      Describes name enc (.obj o) (.prim p (.obj o)) []
  | namedObject {name enc o s q} : o.lookup "type".toList = some (.str s) →
      s ∉ keywords → (∀ p, (s, p) ∉ primNames) → FullName enc s q →
      Describes name enc (.obj o) (.ref q) []
/-- The members of a union. -/
inductive DescribesAll : (name enclosing : Str) → List Json → List PTy → List PDef → Prop
  | nil {name enc} : DescribesAll name enc [] [] []
  | cons {name enc j js t ts ds ds'} : Describes name enc j t ds → DescribesAll name enc js ts ds' →
      DescribesAll name enc (j :: js) (t :: ts) (ds ++ ds')
/-- The fields of a record in the namespace `ns`. -/
inductive DescribesFields : (ns : Str) → List Json → List PField → List PDef → Prop
  | nil {ns} : DescribesFields ns [] [] []
  | cons {ns o js j name t aliases doc tags fs ds ds'} :
      o.lookup "name".toList = some (.str name) → o.lookup "type".toList = some j →
      Describes name ns j t ds → OptStrings o "aliases".toList aliases →
      OptAttr o "doc".toList doc → OptAttr o "golang.tags".toList tags →
      DescribesFields ns js fs ds' →
      DescribesFields ns (.obj o :: js)
        (⟨name, t, o.lookup "default".toList, aliases, doc, tags, o⟩ :: fs) (ds ++ ds')
end
end

/-- The definition is known by this name. -/
def KnownAs (d : PDef) (q : QName) : Prop := q = d.name ∨ q ∈ d.aliases

/-- No name stands for two different definitions, and no definition repeats a name. The same
definition may occur again. -/
def Compatible (ds : List PDef) : Prop :=
  (∀ d ∈ ds, (d.name :: d.aliases).Nodup) ∧
  ∀ d ∈ ds, ∀ d' ∈ ds, ∀ q, KnownAs d q → KnownAs d' q → d = d'

/-- The type names `q`, inside arrays, maps and unions. -/
inductive Mentions : PTy → QName → Prop
  | ref {q} : Mentions (.ref q) q
  | array {t j q} : Mentions t q → Mentions (.array t j) q
  | map {t j q} : Mentions t q → Mentions (.map t j) q
  | union {n ts js t q} : t ∈ ts → Mentions t q → Mentions (.union n ts js) q

/-- Every name mentioned, by the type itself or by a field of a definition, is defined. -/
def Complete (t : PTy) (ds : List PDef) : Prop :=
  (∀ q, Mentions t q → ∃ d ∈ ds, KnownAs d q) ∧
  ∀ d ∈ ds, ∀ fs doc, d.kind = .record fs doc → ∀ f ∈ fs, ∀ q, Mentions f.ty q →
    ∃ d ∈ ds, KnownAs d q

end Verif.Spec
