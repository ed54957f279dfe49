import Verif.Gen.Files
/-
The command gogen-avro as a whole: v10/cmd/gogen-avro/{main,config}.go and `WriteFiles`,
v10/generator/package.go.

What the command asks of the outside is a parameter: globbing, reading documents, decoding JSON, the
templates and gofmt. The target directory is a table of files. A process may be killed at any
moment, and the operating system may refuse or break off any write.
-/
namespace Verif

/-- The flags: `config`, v10/cmd/gogen-avro/config.go:23-31, with the defaults of lines 16-20. `names`
is the value of `namespaced-names`. -/
structure Flags where
  pkg : Str := "avro".toList
  containers : Bool := false
  short : Bool := false
  sources : Bool := true
  names : Str := "none".toList

/-- What is not modelled: `filepath.Glob` (`none`: a bad pattern; a path without wildcards that does not
exist matches nothing), `ioutil.ReadFile`, `json.Unmarshal`, the templates (`none`: they fail) and
`gofmt.Source` (`none`: no Go source). -/
structure Outside where
  glob : Str → Option (List Str)
  read : Str → Option (List Byte)
  json : List Byte → Option Json
  template : Namer → NS → Body → Option Str
  gofmt : Str → Option Str

/-- The check and meaning of `namespaced-names`, config.go:53-59 and main.go:27-32. -/
def namerOf (s : Str) : Option Namer :=
  if s.map lowerAscii = "none".toList then some .simple
  else if s.map lowerAscii = "short".toList then some (.namespaced true)
  else if s.map lowerAscii = "full".toList then some (.namespaced false)
  else none

/-- The loop over the patterns, config.go:64-71. -/
def globAll (glob : Str → Option (List Str)) : List Str → Option (List Str)
  | [] => some []
  | p :: ps => match glob p with
    | none => none
    | some fs => match globAll glob ps with
      | none => none
      | some gs => some (fs ++ gs)

/-- `fName` of `filepath.Split`: what follows the last slash. -/
def basename (path : Str) : Str := (path.reverse.takeWhile (· ≠ '/')).reverse

/-- `fileComment`, main.go:16. -/
def fileComment : Str := "// Code generated by github.com/actgardner/gogen-avro/v10. DO NOT EDIT.".toList

/-- The lines made for the documents, main.go:84-90, each with the line break `strings.Join` puts before it. -/
def sourceLines : List Str → Str
  | [] => []
  | f :: fs => "\n *     ".toList ++ basename f ++ sourceLines fs

/-- `codegenComment`, main.go:71-92. -/
def codegenComment (sources : Bool) (docs : List Str) : Str :=
  if sources then
    fileComment ++ "\n/*\n * ".toList ++
      ((if docs.length = 1 then "SOURCE:".toList else "SOURCES:".toList) ++ sourceLines docs) ++ "\n */".toList
  else fileComment

/-- What is handed to gofmt, package.go:26. -/
def fileText (header pkg body : Str) : Str := header ++ "\npackage ".toList ++ pkg ++ "\n".toList ++ body

/-- The loop over the documents, main.go:34-46; an error is the code the process exits with. -/
def readDocs (out : Outside) : List Str → NS → Except Nat NS
  | [], n => .ok n
  | f :: fs, n => match out.read f with
    | none => .error 2
    | some text => match out.json text with
      | none => .error 3
      | some j => match typeForSchema n j with
        | (.error _, _) => .error 3
        | (.ok _, n') => readDocs out fs n'

/-- The loop over the roots, main.go:55-61, `Add` and `AddFile`, generator.go:22-56: the template is
evaluated before the file is added. -/
def addTexts (template : Body → Option Str) : List (Str × Body) → List (Str × Str) → Option (List (Str × Str))
  | [], files => some files
  | (f, b) :: fs, files => match template b with
    | none => none
    | some t => addTexts template fs ((f, t) :: files.filter (fun e => e.1 ≠ f))

/-- The package when `WriteFiles` is called, or the exit code of an earlier end: main.go:18-61 with
config.go:35-74. The files are given as they are handed to gofmt. -/
def prepare (out : Outside) (fl : Flags) (args : List Str) : Except Nat (List (Str × Str)) :=
  if args.length < 2 then .error 1 else
  match namerOf fl.names with
  | none => .error 1
  | some nm => match globAll out.glob args.tail with
    | none => .error 1
    | some docs => match readDocs out docs { shortUnions := fl.short } with
      | .error c => .error c
      | .ok n => match resolveRoots n n.roots with
        | .error _ => .error 4
        | .ok () => match addTexts (out.template nm n) (addedFiles nm fl.containers n) [] with
          | none => .error 5
          | some files =>
            .ok (files.map fun e => (e.1, fileText (codegenComment fl.sources docs) fl.pkg e.2))

/-- The files in the target directory by name, with their contents. Names are compared as they are:
`filepath.Join` would identify names that differ in repeated slashes. -/
abbrev Disk := Str → Option Str

/-- A file of this name with these contents. -/
def Disk.set (D : Disk) (f : Str) (t : Str) : Disk := fun g => if g = f then some t else D g

/-- How the process ends. -/
inductive End where
  | exit (code : Nat)
  | killed
  deriving DecidableEq

/-- The loop of `WriteFiles`, package.go:23-38, over the files in some order: the disk before, the disk
after, and the end of the process (main.go:63-67). `ioutil.WriteFile` opens the file, which makes it
empty, and writes; both can fail, and the process can be killed at any moment. -/
inductive Saving (gofmt : Str → Option Str) : List (Str × Str) → Disk → Disk → End → Prop where
  | done {D} : Saving gofmt [] D D (.exit 0)
  | killed {fs D} : Saving gofmt fs D D .killed
  | bad {f s fs D} : gofmt s = none → Saving gofmt ((f, s) :: fs) D D (.exit 6)
  | refused {f s fs D} : Saving gofmt ((f, s) :: fs) D D (.exit 6)
  | broken {f s fs D t} (k : Nat) : gofmt s = some t → Saving gofmt ((f, s) :: fs) D (D.set f (t.take k)) (.exit 6)
  | torn {f s fs D t} (k : Nat) : gofmt s = some t → Saving gofmt ((f, s) :: fs) D (D.set f (t.take k)) .killed
  | next {f s fs D D' t e} : gofmt s = some t → Saving gofmt fs (D.set f t) D' e → Saving gofmt ((f, s) :: fs) D D' e

/-- A run of the command: main.go:18-67. The order in which Go iterates over the map of files is any. -/
inductive Ran (out : Outside) (fl : Flags) (args : List Str) (D : Disk) : Disk → End → Prop where
  | stopped {c} : prepare out fl args = .error c → Ran out fl args D D (.exit c)
  | killed : Ran out fl args D D .killed
  | wrote {files l D' e} : prepare out fl args = .ok files → l.Perm files → Saving out.gofmt l D D' e →
      Ran out fl args D D' e

end Verif
