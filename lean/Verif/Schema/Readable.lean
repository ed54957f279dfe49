import Verif.Schema.Names
/-
`IsReadableBy`: v10/schema/{null,bool,int,long,float,double,bytes,string,array,map,
union,reference,record,enum,fixed,definition}.go.
-/
namespace Verif

mutual
/-- The shape shared by all non-union writers: true if `p` holds of the reader, or,
when the reader is a union, of one of its members (recursively), e.g. int.go:33-54. -/
def anyBranch (p : Ty → Bool) : Ty → Bool
  | .union ts => anyBranches p ts
  | r => p r
def anyBranches (p : Ty → Bool) : List Ty → Bool
  | [] => false
  | t :: ts => anyBranch p t || anyBranches p ts
end

/-- `hasMatchingName`, v10/schema/definition.go:29-39: only the last name component
is compared. -/
def hasMatchingName (w : QName) (r : Def) : Bool :=
  w.name == r.name.name || r.aliases.any (fun a => a.name == w.name)

/-- `Definition.IsReadableBy`: record.go:124-127, enum.go:99-102, fixed.go:73-78. -/
def Def.readableBy (w r : Def) : Bool :=
  match w.kind, r.kind with
  | .record _, .record _ => hasMatchingName w.name r
  | .enum _ _, .enum _ _ => hasMatchingName w.name r
  | .fixed n, .fixed m => m == n && hasMatchingName w.name r
  | _, _ => false

/-- Readers of an int: int.go:41-52. -/
def Ty.readsInt : Ty → Bool
  | .int | .long | .float | .double => true
  | _ => false
/-- Readers of a long: long.go:41-49. -/
def Ty.readsLong : Ty → Bool
  | .long | .float | .double => true
  | _ => false
/-- Readers of a float: float.go:41-46. -/
def Ty.readsFloat : Ty → Bool
  | .float | .double => true
  | _ => false
/-- Readers of a double: double.go:40-42. -/
def Ty.readsDouble : Ty → Bool
  | .double => true
  | _ => false
/-- Readers of strings and bytes: string.go:41-46, bytes.go:45-50. -/
def Ty.readsString : Ty → Bool
  | .string | .bytes => true
  | _ => false
/-- bool.go:41 -/
def Ty.readsBool : Ty → Bool
  | .bool => true
  | _ => false
/-- null.go:33 -/
def Ty.readsNull : Ty → Bool
  | .null => true
  | _ => false

mutual
/-- `AvroType.IsReadableBy`; the receiver is the writer's type. -/
def Ty.readableBy (we re : Env) : Ty → Ty → Bool
  | .null => anyBranch Ty.readsNull
  | .bool => anyBranch Ty.readsBool
  | .int => anyBranch Ty.readsInt
  | .long => anyBranch Ty.readsLong
  | .float => anyBranch Ty.readsFloat
  | .double => anyBranch Ty.readsDouble
  | .bytes => anyBranch Ty.readsString
  | .string => anyBranch Ty.readsString
  -- array.go:89-102
  | .array t => anyBranch fun
    | .array u => t.readableBy we re u
    | _ => false
  -- map.go:84-96
  | .map t => anyBranch fun
    | .map u => t.readableBy we re u
    | _ => false
  -- reference.go:47-59
  | .ref q => anyBranch fun
    | .ref q' => match we.find q, re.find q' with
      | some w, some r => w.readableBy r
      | _, _ => false
    | _ => false
  -- union.go:138-155: any writer member readable by any reader member
  | .union ts => fun r => match r with
    | .union rs => Ty.anyReadable we re ts rs
    | r => Ty.anyReadable we re ts [r]
def Ty.anyReadable (we re : Env) : List Ty → List Ty → Bool
  | [], _ => false
  | t :: ts, rs => rs.any (t.readableBy we re) || Ty.anyReadable we re ts rs
end

end Verif
