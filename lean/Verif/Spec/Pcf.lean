import Verif.Spec.SchemaDoc
/-
Parsing Canonical Form (Apache Avro specification, "Parsing Canonical Form for Schemas"), given as the text
of a schema document. The relation covers legal documents: names and symbols of letters, digits,
underscores and dots, every name defined once and before it is used.
-/
namespace Verif.Spec
open Verif

/-- The characters of legal names. -/
def LegalText (s : Str) : Prop := ∀ c ∈ s, c.isAlphanum = true ∨ c = '_' ∨ c = '.'

/-- A legal text between quotes. Nothing needs an escape. -/
def inQuotes (s : Str) : Str := ('"' :: s) ++ ['"']

/-- FULLNAMES: the namespace, a dot and the name, or the name alone if there is no namespace. -/
def fullText : QName → Str
  | ⟨[], n⟩ => n
  | ⟨c :: ns, n⟩ => (c :: ns) ++ '.' :: n

/-- Texts separated by commas. -/
def commas : List Str → Str
  | [] => []
  | [x] => x
  | x :: y :: l => x ++ ',' :: commas (y :: l)

/-- INTEGERS: decimal digits without leading zeros. -/
def decimal : Int → Str
  | .ofNat n => Nat.toDigits 10 n
  | .negSucc n => '-' :: Nat.toDigits 10 (n + 1)

/-- The full name of a definition, which may not have the attribute `"namespace": ""`
(see `Props.empty_namespace_ignored`). -/
def PcfName (enclosing : Str) (o : List (Str × Json)) (q : QName) : Prop :=
  NameOf enclosing o q ∧ o.lookup "namespace".toList ≠ some (.str []) ∧ LegalText (fullText q)

/-- The object has this type. -/
def OfType (o : List (Str × Json)) (t : String) : Prop := o.lookup "type".toList = some (.str t.toList)

mutual
/-- The canonical form of the document; `seen` are the names defined before it, `seen'` those
defined after it. -/
inductive Pcf : (enclosing : Str) → (seen : List QName) → Json → Str → (seen' : List QName) → Prop
  | prim {enc seen s p} : (s, p) ∈ primNames → Pcf enc seen (.str s) (inQuotes s) seen
  -- PRIMITIVES
  | primObject {enc seen o s p} : (s, p) ∈ primNames → o.lookup "type".toList = some (.str s) →
      Pcf enc seen (.obj o) (inQuotes s) seen
  | named {enc seen s q} : (∀ p, (s, p) ∉ primNames) → FullName enc s q → q ∈ seen → LegalText (fullText q) →
      Pcf enc seen (.str s) (inQuotes (fullText q)) seen
  | union {enc seen js ts seen'} : PcfAll enc seen js ts seen' →
      Pcf enc seen (.arr js) ("[".toList ++ commas ts ++ "]".toList) seen'
  | array {enc seen o j t seen'} : OfType o "array" → o.lookup "items".toList = some j → Pcf enc seen j t seen' →
      Pcf enc seen (.obj o) ("{\"type\":\"array\",\"items\":".toList ++ t ++ "}".toList) seen'
  | map {enc seen o j t seen'} : OfType o "map" → o.lookup "values".toList = some j → Pcf enc seen j t seen' →
      Pcf enc seen (.obj o) ("{\"type\":\"map\",\"values\":".toList ++ t ++ "}".toList) seen'
  | enum {enc seen o q} {ss : List Str} : OfType o "enum" → PcfName enc o q → q ∉ seen →
      o.lookup "symbols".toList = some (.arr (ss.map .str)) → (∀ s ∈ ss, LegalText s) →
      Pcf enc seen (.obj o) ("{\"name\":".toList ++ inQuotes (fullText q) ++ ",\"type\":\"enum\",\"symbols\":[".toList ++
        commas (ss.map inQuotes) ++ "]}".toList) (q :: seen)
  | fixed {enc seen o q size} : OfType o "fixed" → PcfName enc o q → q ∉ seen →
      o.lookup "size".toList = some (.num size) →
      Pcf enc seen (.obj o) ("{\"name\":".toList ++ inQuotes (fullText q) ++ ",\"type\":\"fixed\",\"size\":".toList ++
        decimal size ++ "}".toList) (q :: seen)
  | record {enc seen o q js ts seen'} : OfType o "record" → PcfName enc o q → q ∉ seen →
      o.lookup "fields".toList = some (.arr js) → PcfFields q.ns (q :: seen) js ts seen' →
      Pcf enc seen (.obj o) ("{\"name\":".toList ++ inQuotes (fullText q) ++ ",\"type\":\"record\",\"fields\":[".toList ++
        commas ts ++ "]}".toList) seen'
/-- The members of a union. -/
inductive PcfAll : (enclosing : Str) → (seen : List QName) → List Json → List Str → (seen' : List QName) → Prop
  | nil {enc seen} : PcfAll enc seen [] [] seen
  | cons {enc seen j t seen' js ts seen''} : Pcf enc seen j t seen' → PcfAll enc seen' js ts seen'' →
      PcfAll enc seen (j :: js) (t :: ts) seen''
/-- The fields of a record. -/
inductive PcfFields : (ns : Str) → (seen : List QName) → List Json → List Str → (seen' : List QName) → Prop
  | nil {ns seen} : PcfFields ns seen [] [] seen
  | cons {ns seen o n j t seen' js ts seen''} : o.lookup "name".toList = some (.str n) → LegalText n →
      o.lookup "type".toList = some j → Pcf ns seen j t seen' → PcfFields ns seen' js ts seen'' →
      PcfFields ns seen (.obj o :: js)
        (("{\"name\":".toList ++ inQuotes n ++ ",\"type\":".toList ++ t ++ "}".toList) :: ts) seen''
end

end Verif.Spec
