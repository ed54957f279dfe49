import Verif.Spec.SchemaDoc
/-
Schema documents that differ only in attributes that do not matter for the data: documentation, aliases,
defaults and any other attribute not named here (Apache Avro specification, "Parsing Canonical Form for
Schemas": STRIP and PRIMITIVES).
-/
namespace Verif.Spec
open Verif

/-- The two objects have the same attribute, or neither has it. -/
def SameAttr (o o' : List (Str × Json)) (key : String) : Prop := o.lookup key.toList = o'.lookup key.toList

/-- The objects have this type. -/
def HasType (o : List (Str × Json)) (t : String) : Prop := o.lookup "type".toList = some (.str t.toList)

mutual
/-- The documents differ only in attributes that do not matter. -/
inductive Variant : Json → Json → Prop
  | name {s} : Variant (.str s) (.str s)
  | primLeft {o s p} : (s, p) ∈ primNames → o.lookup "type".toList = some (.str s) → Variant (.obj o) (.str s)
  | primRight {o s p} : (s, p) ∈ primNames → o.lookup "type".toList = some (.str s) → Variant (.str s) (.obj o)
  | primBoth {o o' s p} : (s, p) ∈ primNames → o.lookup "type".toList = some (.str s) →
      o'.lookup "type".toList = some (.str s) → Variant (.obj o) (.obj o')
  | union {js js'} : Variants js js' → Variant (.arr js) (.arr js')
  | array {o o' j j'} : HasType o "array" → HasType o' "array" → o.lookup "items".toList = some j →
      o'.lookup "items".toList = some j' → Variant j j' → Variant (.obj o) (.obj o')
  | map {o o' j j'} : HasType o "map" → HasType o' "map" → o.lookup "values".toList = some j →
      o'.lookup "values".toList = some j' → Variant j j' → Variant (.obj o) (.obj o')
  | enum {o o'} : HasType o "enum" → HasType o' "enum" → SameAttr o o' "name" → SameAttr o o' "namespace" →
      SameAttr o o' "symbols" → Variant (.obj o) (.obj o')
  | fixed {o o'} : HasType o "fixed" → HasType o' "fixed" → SameAttr o o' "name" → SameAttr o o' "namespace" →
      SameAttr o o' "size" → Variant (.obj o) (.obj o')
  | record {o o' js js'} : HasType o "record" → HasType o' "record" → SameAttr o o' "name" →
      SameAttr o o' "namespace" → o.lookup "fields".toList = some (.arr js) →
      o'.lookup "fields".toList = some (.arr js') → VariantFields js js' → Variant (.obj o) (.obj o')
/-- Member by member. -/
inductive Variants : List Json → List Json → Prop
  | nil : Variants [] []
  | cons {j j' js js'} : Variant j j' → Variants js js' → Variants (j :: js) (j' :: js')
/-- Fields of the same names with types that are variants. -/
inductive VariantFields : List Json → List Json → Prop
  | nil : VariantFields [] []
  | cons {o o' j j' js js'} : SameAttr o o' "name" → o.lookup "type".toList = some j →
      o'.lookup "type".toList = some j' → Variant j j' → VariantFields js js' →
      VariantFields (.obj o :: js) (.obj o' :: js')
end

end Verif.Spec
