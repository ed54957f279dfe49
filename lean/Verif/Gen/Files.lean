import Verif.Gen.Names
import Verif.Parser.Parse
/-
Which files the command writes: v10/generator/package.go, v10/generator/flat/generator.go and
v10/cmd/gogen-avro/main.go:54-66. The text of a file is not modelled: a file holds what the template
made of one node of the schema. The run of the command with its
header, errors of templates and of the file system is in `Gen/Command`.
-/
namespace Verif

/-- What a generated file is made from: v10/generator/flat/templates/lookup.go:14-36, and the
container template of a record. -/
inductive Body where
  | ty (t : PTy)
  | defn (d : PDef)
  | container (d : PDef)
  deriving DecidableEq

/-- `generator.ToSnake(def.Name()) + ".go"`, v10/generator/flat/generator.go:26. -/
def fileName (goName : Str) : Str := toSnake goName ++ ".go".toList

/-- `addRecordContainer`, v10/generator/flat/generator.go:49. -/
def containerFileName (goName : Str) : Str := toSnake goName ++ "_container.go".toList

mutual
/-- `Add` on a type, v10/generator/flat/generator.go:22-46, as the list of `AddFile` calls. Of the
primitive types only bytes has a template (lookup.go:19), a reference has neither template nor
children (reference.go:61-64). -/
def PTy.files (nm : Namer) (n : NS) : PTy → List (Str × Body)
  | .prim p j => if p = .bytes then [(fileName p.goName, .ty (.prim p j))] else []
  | .array t j => (fileName ((PTy.array t j).goName nm n), .ty (.array t j)) :: t.files nm n
  | .map t j => (fileName ((PTy.map t j).goName nm n), .ty (.map t j)) :: t.files nm n
  | .union name ts js =>
    (fileName ((PTy.union name ts js).goName nm n), .ty (.union name ts js)) :: PTy.filesAll nm n ts
  | .ref _ => []
/-- The loop over the children, generator.go:40-44. -/
def PTy.filesAll (nm : Namer) (n : NS) : List PTy → List (Str × Body)
  | [] => []
  | t :: ts => t.files nm n ++ PTy.filesAll nm n ts
end

/-- generator.go:34-38: the container file of a record, when asked for. -/
def PDef.containerFiles (nm : Namer) (containers : Bool) (d : PDef) : List (Str × Body) :=
  match d.kind with
  | .record _ _ => if containers then [(containerFileName (d.goName nm), .container d)] else []
  | _ => []

/-- `Add` on a root, generator.go:22-46. A file root has no template and no name (file_root.go:17). -/
def Root.files (nm : Namer) (containers : Bool) (n : NS) (r : Root) : List (Str × Body) :=
  match r with
  | .defn d => (fileName (d.goName nm), .defn d) :: d.containerFiles nm containers ++
      PTy.filesAll nm n (Root.defn d).children
  | .file t => PTy.filesAll nm n (Root.file t).children

/-- All calls of `AddFile` in order, v10/cmd/gogen-avro/main.go:54-60. -/
def addedFiles (nm : Namer) (containers : Bool) (n : NS) : List (Str × Body) :=
  n.roots.flatMap (Root.files nm containers n)

/-- `AddFile`, v10/generator/package.go:53-55: a map entry, replacing the one there was. -/
def addFile (files : List (Str × Body)) (e : Str × Body) : List (Str × Body) :=
  e :: files.filter (fun f => f.1 ≠ e.1)

/-- The files in the package when `WriteFiles` is called, main.go:62. -/
def generate (nm : Namer) (containers : Bool) (n : NS) : List (Str × Body) :=
  (addedFiles nm containers n).foldl addFile []

end Verif
