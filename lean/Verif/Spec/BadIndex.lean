import Verif.Spec.Encoding
/-
Input in which, after parts that are in order, comes the index of a union member or of an
enum symbol that does not exist.
-/
namespace Verif

/-- An index that is a 64-bit number and not below `n`. -/
def OutOfRange (n : Nat) (i : Int) : Prop := (i < 0 ∨ (n : Int) ≤ i) ∧ -(2 ^ 63) ≤ i ∧ i < 2 ^ 63

mutual
/-- `bs`, read as a value of type `t`, contains an index that does not exist. With
`enums = false` only union indices count. -/
inductive BadIndex (env : Env) (lim : Nat) (enums : Bool) : Ty → List Byte → Prop
  | union {ts i rest} : OutOfRange ts.length i → BadIndex env lim enums (.union ts) (encLong i ++ rest)
  | enum {q d ss dflt i rest} : enums = true → env.find q = some d → d.kind = .enum ss dflt →
      OutOfRange ss.length i → BadIndex env lim enums (.ref q) (encLong i ++ rest)
  | member {ts u bs} {i : Nat} : i < 2 ^ 63 → ts[i]? = some u → BadIndex env lim enums u bs →
      BadIndex env lim enums (.union ts) (encLong i ++ bs)
  | field {q d fs f gs ds e bs} : env.find q = some d → d.kind = .record (fs ++ f :: gs) →
      EncFields env ds fs e → Datum.allWithin lim ds → BadIndex env lim enums f.ty bs →
      BadIndex env lim enums (.ref q) (e ++ bs)
  | array {item bs} : BadItem env lim enums item bs → BadIndex env lim enums (.array item) bs
  | map {item bs} : BadEntry env lim enums item bs → BadIndex env lim enums (.map item) bs
/-- The same of the blocks of an array. -/
inductive BadItem (env : Env) (lim : Nat) (enums : Bool) : Ty → List Byte → Prop
  | here {item ds es bs} {c : Nat} : EncAll env ds item es → Datum.allWithin lim ds → es.length < c →
      c < 2 ^ 63 → BadIndex env lim enums item bs →
      BadItem env lim enums item (encLong c ++ es.flatten ++ bs)
  | hereSized {item ds es bs n} {c : Nat} : EncAll env ds item es → Datum.allWithin lim ds → es.length < c →
      c < 2 ^ 63 → BadIndex env lim enums item bs →
      BadItem env lim enums item (encLong (-c) ++ encLong n ++ es.flatten ++ bs)
  | later {item ds es bs} : EncAll env ds item es → Datum.allWithin lim ds → es ≠ [] →
      es.length < 2 ^ 63 → BadItem env lim enums item bs →
      BadItem env lim enums item (encLong es.length ++ es.flatten ++ bs)
  | laterSized {item ds es bs n} : EncAll env ds item es → Datum.allWithin lim ds → es ≠ [] →
      es.length < 2 ^ 63 → BadItem env lim enums item bs →
      BadItem env lim enums item (encLong (-es.length) ++ encLong n ++ es.flatten ++ bs)
/-- The same of the blocks of a map. -/
inductive BadEntry (env : Env) (lim : Nat) (enums : Bool) : Ty → List Byte → Prop
  | here {item ds es bs k} {c : Nat} : EncEntries env ds item es → Datum.entriesWithin lim ds →
      es.length < c → c < 2 ^ 63 → k.length ≤ 2147483647 → BadIndex env lim enums item bs →
      BadEntry env lim enums item (encLong c ++ es.flatten ++ (encLong k.length ++ k ++ bs))
  | hereSized {item ds es bs k n} {c : Nat} : EncEntries env ds item es → Datum.entriesWithin lim ds →
      es.length < c → c < 2 ^ 63 → k.length ≤ 2147483647 → BadIndex env lim enums item bs →
      BadEntry env lim enums item
        (encLong (-c) ++ encLong n ++ es.flatten ++ (encLong k.length ++ k ++ bs))
  | later {item ds es bs} : EncEntries env ds item es → Datum.entriesWithin lim ds → es ≠ [] →
      es.length < 2 ^ 63 → BadEntry env lim enums item bs →
      BadEntry env lim enums item (encLong es.length ++ es.flatten ++ bs)
  | laterSized {item ds es bs n} : EncEntries env ds item es → Datum.entriesWithin lim ds → es ≠ [] →
      es.length < 2 ^ 63 → BadEntry env lim enums item bs →
      BadEntry env lim enums item (encLong (-es.length) ++ encLong n ++ es.flatten ++ bs)
end
end Verif
