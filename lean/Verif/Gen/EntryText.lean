import Verif.Gen.Entry
import Verif.Gen.DefaultTextProof
/-
The texts of the functions of Gen/Entry have the tokens of the programs.
-/
namespace Verif
open Spec Spec.Go Spec.GoE
set_option linter.unusedSimpArgs false
set_option maxRecDepth 4000

theorem deserialize_exported {name : Str} (h : Exported name) : Exported ("Deserialize".toList ++ name) := exported_before (by decide +kernel) h

theorem new_exported {name : Str} (h : Exported name) : Exported (newName name) := exported_before (by decide +kernel) h

theorem writes_decodeHead {name type : Str} {us : List Tok} (h : Exported name) (ht : Phrase type us) : Writes false (decodeHead name type)
    ([w "func", .word ("Deserialize".toList ++ name), .sign '(', w "r", w "io", .sign '.', w "Reader", .sign ')', .sign '('] ++ us ++
      [.sign ',', w "error", .sign ')', .sign '{']) false := by
  refine writes_eq (lf (us := [w "func"]) (by decide +kernel) (writes_phrase (phrase_exported (deserialize_exported h)) (by decide +kernel)
    (lf (us := [.sign '(', w "r", w "io", .sign '.', w "Reader", .sign ')', .sign '(']) (by decide +kernel) (writes_phrase ht (by decide +kernel)
    (writes_last (us := [.sign ',', w "error", .sign ')', .sign '{']) (by decide +kernel)))))) ?_
  simp

theorem writes_decodeFromHead {name type : Str} {us : List Tok} (h : Exported name) (ht : Phrase type us) : Writes false (decodeFromHead name type)
    ([w "func", .word ("Deserialize".toList ++ (name ++ "FromSchema".toList)), .sign '(', w "r", w "io", .sign '.', w "Reader", .sign ',', w "schema", w "string", .sign ')', .sign '('] ++ us ++
      [.sign ',', w "error", .sign ')', .sign '{']) false := by
  refine writes_eq (lf (us := [w "func"]) (by decide +kernel) (writes_phrase (phrase_exported (deserialize_exported (exported_append h (by decide +kernel)))) (by decide +kernel)
    (lf (us := [.sign '(', w "r", w "io", .sign '.', w "Reader", .sign ',', w "schema", w "string", .sign ')', .sign '(']) (by decide +kernel) (writes_phrase ht (by decide +kernel)
    (writes_last (us := [.sign ',', w "error", .sign ')', .sign '{']) (by decide +kernel)))))) ?_
  simp

theorem writes_newLine {x name : Str} (hx : Phrase x [.word x]) (h : Exported name) : Writes false (newLine x name) (St.new x (newName name)).toks false := by
  refine writes_eq (lf (us := []) (by decide +kernel) (writes_phrase hx (by decide +kernel) (lf (us := [.sign ':', .sign '=']) (by decide +kernel)
    (writes_phrase (phrase_exported (new_exported h)) (by decide +kernel) (writes_last (us := [.sign '(', .sign ')', .sign ';']) (by decide +kernel)))))) ?_
  simp [St.toks]

theorem phrase_t : Phrase "t".toList [.word "t".toList] := phrase_const (by decide +kernel) (by decide +kernel)

theorem writes_compileOwn : Writes false compileOwnText (St.compile "deser".toList ownSchema ownSchema).toks false :=
  writes_eq (lf (us := [w "deser", .sign ',', w "err", .sign ':', .sign '=', w "compiler", .sign '.', w "CompileSchemaBytes", .sign '(']) (by decide +kernel)
    (lf (us := bytesOfToks ownSchema ++ [.sign ',']) (by decide +kernel) (writes_last (us := bytesOfToks ownSchema ++ [.sign ')', .sign ';']) (by decide +kernel)))) (by decide +kernel)

theorem writes_compileGiven : Writes false compileGivenText (St.compile "deser".toList (.var "schema".toList) ownSchema).toks false :=
  writes_eq (lf (us := [w "deser", .sign ',', w "err", .sign ':', .sign '=', w "compiler", .sign '.', w "CompileSchemaBytes", .sign '(']) (by decide +kernel)
    (lf (us := bytesOfToks (.var "schema".toList) ++ [.sign ',']) (by decide +kernel) (writes_last (us := bytesOfToks ownSchema ++ [.sign ')', .sign ';']) (by decide +kernel)))) (by decide +kernel)

theorem writes_giveUp : Writes false giveUpText (St.giveUp "t".toList).toks false := writes_piece (by decide +kernel)

theorem writes_eval : Writes false evalText
    (stsToks [.eval false (.var "r".toList) (.var "deser".toList) true "t".toList, .ret "t".toList] ++ [.sign '}', .sign ';']) false :=
  writes_eq (lf (us := (St.eval false (.var "r".toList) (.var "deser".toList) true "t".toList).toks) (by decide +kernel)
    (writes_last (us := (St.ret "t".toList).toks ++ [.sign '}', .sign ';']) (by decide +kernel))) (by decide +kernel)

theorem writes_unionEval (ts : List PTy) : Writes false (unionEvalText ts)
    (stsToks [.eval false (.var "r".toList) (.var "deser".toList) (!(nullAt 0 ts).isSome) "t".toList, .giveUp "t".toList, .ret "t".toList] ++ [.sign '}', .sign ';']) false := by
  unfold unionEvalText
  cases (nullAt 0 ts).isSome with
  | true =>
    exact writes_eq (lf (us := []) (by decide +kernel) (lf (c := "\terr = vm.Eval(r, deser, t)\n".toList)
      (us := (St.eval false (.var "r".toList) (.var "deser".toList) false "t".toList).toks) (by decide +kernel)
      (lf (us := []) (by decide +kernel) (writes_cat writes_giveUp (writes_last (us := (St.ret "t".toList).toks ++ [.sign '}', .sign ';']) (by decide +kernel)))))) (by decide +kernel)
  | false =>
    exact writes_eq (lf (us := []) (by decide +kernel) (lf (c := "\terr = vm.Eval(r, deser, &t)\n".toList)
      (us := (St.eval false (.var "r".toList) (.var "deser".toList) true "t".toList).toks) (by decide +kernel)
      (lf (us := []) (by decide +kernel) (writes_cat writes_giveUp (writes_last (us := (St.ret "t".toList).toks ++ [.sign '}', .sign ';']) (by decide +kernel)))))) (by decide +kernel)

theorem writes_recordDecode {name : Str} (h : Exported name) : Writes false (recordDecodeText name) (recordDecode false name).toks false := by
  refine writes_eq (writes_cat (writes_decodeHead h (phrase_exported h)) (writes_cat (writes_newLine phrase_t h) (writes_cat writes_compileOwn
    (writes_cat writes_giveUp (writes_end writes_eval))))) ?_
  simp [Fn.toks, recordDecode, recvToks, paramsToks, readerToks, GoE.stsToks, w]

theorem writes_recordDecodeFrom {name : Str} (h : Exported name) : Writes false (recordDecodeFromText name) (recordDecode true name).toks false := by
  refine writes_eq (writes_cat (writes_decodeFromHead h (phrase_exported h)) (writes_cat (writes_newLine phrase_t h) (lf (us := []) (by decide +kernel) (writes_cat writes_compileGiven
    (writes_cat writes_giveUp (writes_end writes_eval)))))) ?_
  simp [Fn.toks, recordDecode, recvToks, paramsToks, readerToks, GoE.stsToks, w]

theorem writes_unionDecode {name type : Str} {us : List Tok} (h : Exported name) (ht : Phrase type us) (ts : List PTy) :
    Writes false (unionDecodeText name type ts) (unionDecode false name us (nullAt 0 ts).isSome).toks false := by
  refine writes_eq (writes_cat (writes_decodeHead h ht) (writes_cat (writes_newLine phrase_t h) (writes_cat writes_compileOwn
    (writes_cat writes_giveUp (writes_end (writes_unionEval ts)))))) ?_
  simp [Fn.toks, unionDecode, recvToks, paramsToks, readerToks, GoE.stsToks, w]

theorem writes_unionDecodeFrom {name type : Str} {us : List Tok} (h : Exported name) (ht : Phrase type us) (ts : List PTy) :
    Writes false (unionDecodeFromText name type ts) (unionDecode true name us (nullAt 0 ts).isSome).toks false := by
  refine writes_eq (writes_cat (writes_decodeFromHead h ht) (writes_cat (writes_newLine phrase_t h) (writes_cat writes_compileGiven
    (writes_cat writes_giveUp (writes_end (writes_unionEval ts)))))) ?_
  simp [Fn.toks, unionDecode, recvToks, paramsToks, readerToks, GoE.stsToks, w]

theorem reader_exported {name : Str} (h : Exported name) : Exported (readerName name) := exported_append h (by decide +kernel)

theorem writes_newWriter {name : Str} (h : Exported name) : Writes false (newWriterText name) (newWriterFn name).toks false := by
  refine writes_eq (lf (us := [w "func"]) (by decide +kernel) (writes_phrase (phrase_exported (new_exported (exported_append h (t := "Writer".toList) (by decide +kernel)))) (by decide +kernel)
    (lf (us := [.sign '(', w "writer", w "io", .sign '.', w "Writer", .sign ',', w "codec", w "container", .sign '.', w "Codec", .sign ',']) (by decide +kernel)
    (lf (us := [w "recordsPerBlock", w "int64", .sign ')', .sign '(', .sign '*', w "container", .sign '.', w "Writer", .sign ',', w "error", .sign ')', .sign '{']) (by decide +kernel)
    (writes_cat (writes_newLine (phrase_const (by decide +kernel) (by decide +kernel)) h)
    (lf (us := [w "return", w "container", .sign '.', w "NewWriter", .sign '(', w "writer", .sign ',', w "codec", .sign ',']) (by decide +kernel)
    (writes_last (us := [w "recordsPerBlock", .sign ',', w "str", .sign '.', w "Schema", .sign '(', .sign ')', .sign ')', .sign ';', .sign '}', .sign ';']) (by decide +kernel)))))))) ?_
  simp [Fn.toks, newWriterFn, recvToks, paramsToks, GoE.stsToks, St.toks, Txt.toks, w]

theorem writes_nilGiveUp : Writes false "\tif err != nil {\n\t\treturn nil, err\n\t}\n\n".toList (St.giveUp "nil".toList).toks false := writes_piece (by decide +kernel)

theorem writes_newReader {name : Str} (h : Exported name) : Writes false (newReaderText name) (newReaderFn name).toks false := by
  refine writes_eq (lf (us := [w "func"]) (by decide +kernel) (writes_phrase (phrase_exported (new_exported (reader_exported h))) (by decide +kernel)
    (lf (us := [.sign '(', w "r", w "io", .sign '.', w "Reader", .sign ')', .sign '(', .sign '*']) (by decide +kernel)
    (writes_phrase (phrase_exported (reader_exported h)) (by decide +kernel) (lf (us := [.sign ',', w "error", .sign ')', .sign '{']) (by decide +kernel)
    (lf (us := (St.openFile "containerReader".toList "r".toList).toks) (by decide +kernel) (writes_cat writes_nilGiveUp (writes_cat (writes_newLine phrase_t h)
    (lf (us := [w "deser", .sign ',', w "err", .sign ':', .sign '=', w "compiler", .sign '.', w "CompileSchemaBytes", .sign '(']) (by decide +kernel)
    (lf (us := bytesOfToks (.call "containerReader".toList "AvroContainerSchema".toList) ++ [.sign ',']) (by decide +kernel)
    (lf (us := bytesOfToks ownSchema ++ [.sign ')', .sign ';']) (by decide +kernel) (writes_cat writes_nilGiveUp
    (lf (us := [w "return", .sign '&']) (by decide +kernel) (writes_phrase (phrase_exported (reader_exported h)) (by decide +kernel)
    (lf (us := [.sign '{', w "r", .sign ':', w "containerReader", .sign ',', w "p", .sign ':', w "deser", .sign ',']) (by decide +kernel)
    (writes_last (us := [.sign '}', .sign ',', w "nil", .sign ';', .sign '}', .sign ';']) (by decide +kernel))))))))))))))))) ?_
  simp [Fn.toks, newReaderFn, recvToks, paramsToks, readerToks, GoE.stsToks, St.toks, Txt.toks, ownSchema, w]

theorem writes_readRecord {name : Str} (h : Exported name) : Writes false (readText name) (readFn name).toks false := by
  refine writes_eq (lt (us := [w "func", .sign '(', w "r"]) (by decide +kernel) (writes_phrase (phrase_exported (reader_exported h)) (by decide +kernel)
    (lf (us := [.sign ')', w "Read", .sign '(', .sign ')', .sign '(']) (by decide +kernel) (writes_phrase (phrase_exported h) (by decide +kernel)
    (lf (us := [.sign ',', w "error", .sign ')', .sign '{']) (by decide +kernel) (writes_cat (writes_newLine phrase_t h)
    (writes_last (us := stsToks [.eval true (.part "r".toList "r".toList) (.part "r".toList "p".toList) true "t".toList, .ret "t".toList] ++ [.sign '}', .sign ';']) (by decide +kernel)))))))) ?_
  simp [Fn.toks, readFn, recvToks, paramsToks, GoE.stsToks, w]

end Verif
