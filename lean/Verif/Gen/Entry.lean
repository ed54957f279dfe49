import Verif.Spec.GoEntry
import Verif.Gen.FileText
/-
The generated functions by which a program starts to decode, and those of container files, as Go programs. Gen/FileText has
their text as text/template makes it, Gen/EntryText shows that each text is that of its program, Props/Entry what they do.
-/
namespace Verif
open Spec.Go Spec.GoE

/-- `io.Reader` -/
def readerToks : List Tok := [w "io", .sign '.', w "Reader"]

/-- `[]byte(t.Schema())` -/
def ownSchema : Txt := .call "t".toList "Schema".toList

/-- templates/record.go:45-54 and 56-66, `given` for the second. -/
def recordDecode (given : Bool) (name : Str) : Fn where
  name := "Deserialize".toList ++ (if given then name ++ "FromSchema".toList else name)
  params := ("r".toList, readerToks) :: if given then [("schema".toList, [w "string"])] else []
  result := [.word name]
  body := [.new "t".toList (newName name), .compile "deser".toList (if given then .var "schema".toList else ownSchema) ownSchema, .giveUp "t".toList,
    .eval false (.var "r".toList) (.var "deser".toList) true "t".toList, .ret "t".toList]

/-- templates/union.go:67-83 and 85-101. `type` is the type as it is written: a pointer if the union has null. -/
def unionDecode (given : Bool) (name : Str) (type : List Tok) (null : Bool) : Fn where
  name := "Deserialize".toList ++ (if given then name ++ "FromSchema".toList else name)
  params := ("r".toList, readerToks) :: if given then [("schema".toList, [w "string"])] else []
  result := type
  body := [.new "t".toList (newName name), .compile "deser".toList (if given then .var "schema".toList else ownSchema) ownSchema, .giveUp "t".toList,
    .eval false (.var "r".toList) (.var "deser".toList) (!null) "t".toList, .giveUp "t".toList, .ret "t".toList]

/-- `NewXWriter`, templates/record_container.go:12-15. -/
def newWriterFn (name : Str) : Fn where
  name := newName (name ++ "Writer".toList)
  params := [("writer".toList, [w "io", .sign '.', w "Writer"]), ("codec".toList, [w "container", .sign '.', w "Codec"]), ("recordsPerBlock".toList, [w "int64"])]
  result := [.sign '*', w "container", .sign '.', w "Writer"]
  body := [.new "str".toList (newName name),
    .retWriter "writer".toList "codec".toList "recordsPerBlock".toList (.call "str".toList "Schema".toList)]

/-- `NewXReader`, templates/record_container.go:23-39. -/
def newReaderFn (name : Str) : Fn where
  name := newName (readerName name)
  params := [("r".toList, readerToks)]
  result := [.sign '*', .word (readerName name)]
  body := [.openFile "containerReader".toList "r".toList, .giveUp "nil".toList, .new "t".toList (newName name),
    .compile "deser".toList (.call "containerReader".toList "AvroContainerSchema".toList) ownSchema, .giveUp "nil".toList,
    .retReader (readerName name) "containerReader".toList "deser".toList]

/-- `Read`, templates/record_container.go:41-45. -/
def readFn (name : Str) : Fn where
  recv := some ("r".toList, readerName name)
  name := "Read".toList
  params := []
  result := [.word name]
  body := [.new "t".toList (newName name), .eval true (.part "r".toList "r".toList) (.part "r".toList "p".toList) true "t".toList, .ret "t".toList]

end Verif
