import Verif.Gen.Text
import Verif.Spec.MiniGo
import Verif.Spec.GoShape
/-
The generated serializers as Go programs: the functions of v10/generator/flat/templates that write a value, and
their text as text/template makes it. Gen/CodeText shows that each text is that of its program, Gen/CodeRun what
the programs do.
-/
namespace Verif
open Spec.Go

/-- `SerializerMethod` of the primitive types: null.go:12, bool.go:16, int.go:16, long.go:16, float.go:16,
double.go:16, bytes.go:18, string.go:16, all in v10/schema; after `vm.`. -/
def Prim.serializer : Prim → Str
  | .null => "WriteNull".toList
  | .bool => "WriteBool".toList
  | .int => "WriteInt".toList
  | .long => "WriteLong".toList
  | .float => "WriteFloat".toList
  | .double => "WriteDouble".toList
  | .bytes => "WriteBytes".toList
  | .string => "WriteString".toList

/-- `SerializerMethod`: array.go:33-35, map.go:33-35, union.go:76-78, record.go:45-47, enum.go:67-69,
fixed.go:49-51, reference.go:23-25, all in v10/schema. `name` is the Go name. -/
def writeName (name : Str) : Str := "write".toList ++ name

/-- `SerializerMethod` of a type, as a program calls it. -/
def PTy.serializer (nm : Namer) (n : NS) : PTy → Callee
  | .prim p _ => .of "vm".toList p.serializer
  | t => .own (writeName (t.goName nm n))

/-- `SerializerMethod` of a type. -/
def PTy.serializerText (nm : Namer) (n : NS) : PTy → Str
  | .prim p _ => "vm.".toList ++ p.serializer
  | t => writeName (t.goName nm n)

/-! ### Programs -/

/-- The variables of the templates. -/
def vR : Expr := .var "r".toList
def vW : Expr := .var "w".toList
def vE : Expr := .var "e".toList
def vK : Expr := .var "k".toList
def vErr : Expr := .var "err".toList

/-- A function of vm applied to a value and the writer. -/
def vmCall (f : String) (e : Expr) : Expr := .call (.of "vm".toList f.toList) [e, vW]

/-- `if err != nil { return err }`. -/
def errCheck : Stmt := .cond (.ne vErr .nil) [.ret vErr]

/-- A serializer: `func writeX(r T, w io.Writer) error { … }`. -/
def writeFunc (name : Str) (ty : GoTy) (body : List Stmt) : Func :=
  ⟨none, writeName name, [("r".toList, ty), ("w".toList, .of "io".toList "Writer".toList)], body⟩

/-- Templates/array.go:11-23. -/
def arrayFunc (name : Str) (ty : GoTy) (item : Callee) : Func :=
  writeFunc name ty
    [.define ["err".toList] (vmCall "WriteLong" (.conv "int64".toList (.len vR))),
     .cond (.or (.ne vErr .nil) (.eq (.len vR) (.num 0))) [.ret vErr],
     .range "_".toList "e".toList vR [.assign ["err".toList] (.call item [vE, vW]), errCheck],
     .ret (vmCall "WriteLong" (.num 0))]

/-- Templates/map.go:10-26. -/
def mapFunc (name : Str) (ty : GoTy) (item : Callee) : Func :=
  writeFunc name ty
    [.define ["err".toList] (vmCall "WriteLong" (.conv "int64".toList (.len vR))),
     .cond (.or (.ne vErr .nil) (.eq (.len vR) (.num 0))) [.ret vErr],
     .range "k".toList "e".toList vR
       [.assign ["err".toList] (vmCall "WriteString" vK), errCheck,
        .assign ["err".toList] (.call item [vE, vW]), errCheck],
     .ret (vmCall "WriteLong" (.num 0))]

/-- `NullIndex()`, v10/schema/union.go:17-24: the position of the first null (`none` for -1). -/
def nullAt : Nat → List PTy → Option Nat
  | _, [] => none
  | i, t :: ts => if nullTy t then some i else nullAt (i + 1) ts

/-- The cases of templates/union.go:43-48. `type` is `UnionEnumType`. -/
def unionCases (nm : Namer) (n : NS) (type : Str) (null : Option Nat) : Nat → List PTy → List (Expr × List Stmt)
  | _, [] => []
  | i, t :: ts => (if null = some i then [] else
      [(.var (type ++ t.goName nm n), [.ret (.call (t.serializer nm n) [.sel vR (t.goName nm n), vW])])]) ++
    unionCases nm n type null (i + 1) ts

/-- What a union writes for no value, templates/union.go:32-37. -/
def unionNull : Option Nat → List Stmt
  | none => []
  | some i => [.cond (.eq vR .nil) [.define ["err".toList] (vmCall "WriteLong" (.num i)), .ret vErr]]

/-- The message of templates/union.go:50. `type` is `GoType`. -/
def unionMessage (type : Str) : Str := "invalid value for ".toList ++ type

/-- Templates/union.go:31-51. -/
def unionFunc (nm : Namer) (n : NS) (name : Str) (ty : GoTy) (type : Str) (ts : List PTy) : Func :=
  writeFunc name ty (unionNull (nullAt 0 ts) ++
    [.define ["err".toList] (vmCall "WriteLong" (.conv "int64".toList (.sel vR "UnionType".toList))),
     errCheck,
     .switch (.sel vR "UnionType".toList) (unionCases nm n (unionEnumType name) (nullAt 0 ts) 0 ts),
     .ret (.call (.of "fmt".toList "Errorf".toList) [.text (bytesOf (unionMessage type))])])

/-- The loop of templates/record.go:70-75. -/
def fieldStmts (nm : Namer) (n : NS) : List PField → List Stmt
  | [] => []
  | f :: fs => .assign ["err".toList] (.call (f.ty.serializer nm n) [.sel vR (fieldGoName nm f.name), vW]) :: errCheck ::
      fieldStmts nm n fs

/-- Templates/record.go:68-77. -/
def recordFunc (nm : Namer) (n : NS) (name : Str) (fs : List PField) : Func :=
  writeFunc name (.named name) (.declare "err".toList "error".toList :: (fieldStmts nm n fs ++ [.ret vErr]))

/-- Templates/enum.go:34-36. -/
def enumFunc (name : Str) : Func := writeFunc name (.named name) [.ret (vmCall "WriteInt" (.conv "int32".toList vR))]

/-- Templates/fixed.go:12-15. -/
def fixedFunc (name : Str) : Func :=
  writeFunc name (.named name)
    [.define ["_".toList, "err".toList] (.call (.of "w".toList "Write".toList) [.all vR]), .ret vErr]

/-- The serializer of a definition. -/
def PDef.writer (nm : Namer) (n : NS) (d : PDef) : Func := match d.kind with
  | .record fs _ => recordFunc nm n (d.goName nm) fs
  | .enum _ _ _ => enumFunc (d.goName nm)
  | .fixed _ => fixedFunc (d.goName nm)

/-- The serializer of a type that is generated for it; those of the primitive types are in vm. -/
def PTy.writer (nm : Namer) (n : NS) : PTy → Option Func
  | .prim _ _ => none
  | .array t d => some (arrayFunc ((PTy.array t d).goName nm n) (goTypeOf nm n (.array t d)) (t.serializer nm n))
  | .map t d => some (mapFunc ((PTy.map t d).goName nm n) (goTypeOf nm n (.map t d)) (t.serializer nm n))
  | .union name ts d => some (unionFunc nm n ((PTy.union name ts d).goName nm n) (goTypeOf nm n (.union name ts d))
      ((PTy.union name ts d).goType nm n) ts)
  | .ref q => (n.find q).map (PDef.writer nm n)

/-- `Serialize`, templates/record.go:79-81 and union.go:63-65. -/
def serializeMethod (name : Str) (ty : GoTy) : Func :=
  ⟨some ("r".toList, ty), "Serialize".toList, [("w".toList, .of "io".toList "Writer".toList)],
    [.ret (.call (.own (writeName name)) [vR, vW])]⟩

/-- The package holds what is generated for a type: its serializer, and the constants of a union
(templates/union.go:16-22) except for the null member. -/
structure Has (P : Package) (nm : Namer) (n : NS) (t : PTy) : Prop where
  func : ∀ f, t.writer nm n = some f → P.funcs f.name = some f
  consts : ∀ name ts d, t = .union name ts d → ∀ i u, ts[i]? = some u → ts.findIdx? nullTy ≠ some i →
    P.consts (unionEnumType (t.goName nm n) ++ u.goName nm n) = some (.int (BitVec.ofNat 64 i))

/-! ### Texts -/

/-- The first line of a serializer: array.go:11, map.go:10, union.go:31, record.go:68, enum.go:34, fixed.go:12. -/
def writeHead (name type : Str) : Str :=
  "\nfunc ".toList ++ (writeName name ++ ("(r ".toList ++ (type ++ ", w io.Writer) error {\n".toList)))

/-- Templates/array.go:12-15, map.go:11-14: `last` is what the first line ends with. -/
def countText (last : Str) : Str :=
  "\terr := vm.WriteLong(".toList ++ ("int64(len(r))".toList ++ (last ++
    ("\tif err != nil || ".toList ++ "len(r) == 0 {\n\t\treturn err\n\t}\n".toList)))

/-- Templates/array.go:18-20, map.go:20-22. -/
def checkText : Str := "\t\tif err != nil {\n".toList ++ "\t\t\treturn err\n\t\t}\n".toList

/-- Templates/array.go:11-23. -/
def arrayCode (name type item : Str) : Str :=
  writeHead name type ++ (countText ",w)\n".toList ++ ("\tfor _, e := range r {\n".toList ++ ("\t\terr = ".toList ++ (item ++ ("(e, w)\n".toList ++
    (checkText ++ "\t}\n\treturn vm.WriteLong(0,w)\n}\n".toList))))))

/-- Templates/map.go:10-26. -/
def mapCode (name type item : Str) : Str :=
  writeHead name type ++ (countText ", w)\n".toList ++ ("\tfor k, e := range r {\n".toList ++ ("\t\terr = vm.WriteString(k, w)\n".toList ++ (checkText ++
    ("\t\terr = ".toList ++ (item ++ ("(e, w)\n".toList ++ (checkText ++ "\t}\n\treturn vm.WriteLong(0, w)\n}\n".toList))))))))

/-- Templates/union.go:32-37. -/
def unionNullText : Option Nat → Str
  | none => "\t\n".toList
  | some i => "\t\n\tif r == nil {\n".toList ++ ("\t\terr := vm.WriteLong(".toList ++ (Nat.toDigits 10 i ++
      ", w)\n\t\treturn err\n\t}\n        \n".toList))

/-- Templates/union.go:43-48. -/
def unionCaseTexts (nm : Namer) (n : NS) (type : Str) (null : Option Nat) : Nat → List PTy → Str
  | _, [] => []
  | i, t :: ts => (if null = some i then [] else
      "case ".toList ++ ((type ++ t.goName nm n) ++ (":\n\t\treturn ".toList ++ (t.serializerText nm n ++ ("(r.".toList ++ (t.goName nm n ++
        ", w)\n          ".toList)))))) ++
    unionCaseTexts nm n type null (i + 1) ts

/-- Templates/union.go:31-51. -/
def unionCode (nm : Namer) (n : NS) (name type : Str) (ts : List PTy) : Str :=
  writeHead name type ++ (unionNullText (nullAt 0 ts) ++ ("\terr := vm.WriteLong(".toList ++ ("int64(r.UnionType), w)\n".toList ++
    ("\tif err != nil {\n\t\treturn err\n\t}\n".toList ++ ("\tswitch r.UnionType{\n\t".toList ++
      (unionCaseTexts nm n (unionEnumType name) (nullAt 0 ts) 0 ts ++ ("}\n\treturn fmt.Errorf(".toList ++ ('"' :: (unionMessage type ++
        '"' :: ")\n}\n".toList)))))))))

/-- Templates/record.go:70-75. -/
def fieldTexts (nm : Namer) (n : NS) : List PField → Str
  | [] => []
  | f :: fs => "err = ".toList ++ (f.ty.serializerText nm n ++ ("( r.".toList ++ (fieldGoName nm f.name ++
      (", w)\n\tif err != nil {\n\t\treturn err\n\t}\n\t".toList ++ fieldTexts nm n fs))))

/-- Templates/record.go:68-77. -/
def recordCode (nm : Namer) (n : NS) (name : Str) (fs : List PField) : Str :=
  writeHead name name ++ ("\tvar err error\n\t".toList ++ (fieldTexts nm n fs ++ "return err\n}\n".toList))

/-- Templates/enum.go:34-36. -/
def enumCode (name : Str) : Str := writeHead name name ++ "\treturn vm.WriteInt(int32(r), w)\n}\n".toList

/-- Templates/fixed.go:12-15. -/
def fixedCode (name : Str) : Str := writeHead name name ++ "\t_, err := w.Write(r[:])\n\treturn err\n}\n".toList

/-- The text of the serializer of a definition. -/
def PDef.writerText (nm : Namer) (n : NS) (d : PDef) : Str := match d.kind with
  | .record fs _ => recordCode nm n (d.goName nm) fs
  | .enum _ _ _ => enumCode (d.goName nm)
  | .fixed _ => fixedCode (d.goName nm)

/-- The text of the serializer of a type. -/
def PTy.writerText (nm : Namer) (n : NS) : PTy → Option Str
  | .prim _ _ => none
  | .array t d => some (arrayCode ((PTy.array t d).goName nm n) ((PTy.array t d).goType nm n) (t.serializerText nm n))
  | .map t d => some (mapCode ((PTy.map t d).goName nm n) ((PTy.map t d).goType nm n) (t.serializerText nm n))
  | .union name ts d => some (unionCode nm n ((PTy.union name ts d).goName nm n) ((PTy.union name ts d).goType nm n) ts)
  | .ref q => (n.find q).map (PDef.writerText nm n)

/-- The text of `Serialize`, templates/record.go:79-81 and union.go:63-65. -/
def serializeText (name type : Str) : Str :=
  "\nfunc (r ".toList ++ (type ++ (") Serialize(w io.Writer) error {\n".toList ++ ("\treturn ".toList ++ (writeName name ++
    "(r, w)\n}\n".toList))))

end Verif
