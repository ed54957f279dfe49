import Verif.Schema.Types
/-
Which types can be read as which: the table of "Schema Resolution" in the Avro
specification, as a relation. Definitions match if they are of the same kind and the
reader's name or one of its aliases has the writer's last name component (the
specification's "unqualified name"); fixeds also need the same size.
-/
namespace Verif

/-- The writer's definition's unqualified name is the reader's, or that of an alias. -/
def SameName (w r : Def) : Prop := w.name.name = r.name.name ∨ ∃ a ∈ r.aliases, a.name = w.name.name

/-- Both are records, both enums, or both fixeds of one size. -/
def SameKind : DefKind → DefKind → Prop
  | .record _, .record _ => True
  | .enum _ _, .enum _ _ => True
  | .fixed n, .fixed m => n = m
  | _, _ => False

/-- Data of the first type can be read as the second; `we`, `re` are the definitions. -/
inductive CanRead (we re : Env) : Ty → Ty → Prop
  | null : CanRead we re .null .null
  | bool : CanRead we re .bool .bool
  | int : CanRead we re .int .int
  | intLong : CanRead we re .int .long
  | intFloat : CanRead we re .int .float
  | intDouble : CanRead we re .int .double
  | long : CanRead we re .long .long
  | longFloat : CanRead we re .long .float
  | longDouble : CanRead we re .long .double
  | float : CanRead we re .float .float
  | floatDouble : CanRead we re .float .double
  | double : CanRead we re .double .double
  | bytes : CanRead we re .bytes .bytes
  | bytesString : CanRead we re .bytes .string
  | string : CanRead we re .string .string
  | stringBytes : CanRead we re .string .bytes
  | array {w r} : CanRead we re w r → CanRead we re (.array w) (.array r)
  | map {w r} : CanRead we re w r → CanRead we re (.map w) (.map r)
  | ref {q q' wd rd} : we.find q = some wd → re.find q' = some rd → SameName wd rd → SameKind wd.kind rd.kind →
      CanRead we re (.ref q) (.ref q')
  /-- a union can be read if one of its members can -/
  | ofUnion {ts t r} : t ∈ ts → CanRead we re t r → CanRead we re (.union ts) r
  /-- a union can read what one of its members can -/
  | intoUnion {w rs r} : r ∈ rs → CanRead we re w r → CanRead we re w (.union rs)

end Verif
