import Verif.Props.Run
import Verif.Props.Text
import Verif.Props.Soe
import Verif.Gen.Files
import Verif.Parser.Write
import Verif.Gen.Command
import Verif.Generic.Decode
/-
The model against the program itself: outputs of gogen-avro that are in /repo, namely the generated files in
v10/container/avro and the expected values of its tests. These are tests of the transcription, not proofs of
properties. Long lines are copies. The objects are Go maps, so their entries are in the order of the keys.
-/
namespace Verif.Props.Vectors
open Verif Spec Spec.Go

/-- The schema that a document gives satisfies the test. -/
def onSchema (j : Json) (p : Schema → Bool) : Bool := match parseSchema j with
  | .ok s => p s
  | .error _ => false

/-- Two texts are the same to the Go compiler: `gofmt` moves spaces. -/
def sameTokens (a b : Str) : Bool := match tokens a, tokens b with
  | some x, some y => x == y
  | _, _ => false

/-! ### v10/schema/canonical/canonical_test.go, crc_test.go -/

def interop : Json := (.obj [("fields".toList, (.arr [(.obj [("name".toList, (.str "intField".toList)), ("type".toList, (.str "int".toList))]), (.obj [("name".toList, (.str "longField".toList)), ("type".toList, (.str "long".toList))]), (.obj [("name".toList, (.str "stringField".toList)), ("type".toList, (.str "string".toList))]), (.obj [("name".toList, (.str "boolField".toList)), ("type".toList, (.str "boolean".toList))]), (.obj [("name".toList, (.str "floatField".toList)), ("type".toList, (.str "float".toList))]), (.obj [("name".toList, (.str "doubleField".toList)), ("type".toList, (.str "double".toList))]), (.obj [("name".toList, (.str "bytesField".toList)), ("type".toList, (.str "bytes".toList))]), (.obj [("name".toList, (.str "nullField".toList)), ("type".toList, (.str "null".toList))]), (.obj [("name".toList, (.str "arrayField".toList)), ("type".toList, (.obj [("items".toList, (.str "double".toList)), ("type".toList, (.str "array".toList))]))]), (.obj [("name".toList, (.str "mapField".toList)), ("type".toList, (.obj [("type".toList, (.str "map".toList)), ("values".toList, (.obj [("fields".toList, (.arr [(.obj [("name".toList, (.str "label".toList)), ("type".toList, (.str "string".toList))])])), ("name".toList, (.str "Foo".toList)), ("type".toList, (.str "record".toList))]))]))]), (.obj [("name".toList, (.str "unionField".toList)), ("type".toList, (.arr [(.str "boolean".toList), (.str "double".toList), (.obj [("items".toList, (.str "bytes".toList)), ("type".toList, (.str "array".toList))])]))]), (.obj [("name".toList, (.str "enumField".toList)), ("type".toList, (.obj [("name".toList, (.str "Kind".toList)), ("symbols".toList, (.arr [(.str "A".toList), (.str "B".toList), (.str "C".toList)])), ("type".toList, (.str "enum".toList))]))]), (.obj [("name".toList, (.str "fixedField".toList)), ("type".toList, (.obj [("name".toList, (.str "MD5".toList)), ("size".toList, (.num 16)), ("type".toList, (.str "fixed".toList))]))]), (.obj [("name".toList, (.str "recordField".toList)), ("type".toList, (.obj [("fields".toList, (.arr [(.obj [("name".toList, (.str "label".toList)), ("type".toList, (.str "string".toList))]), (.obj [("name".toList, (.str "children".toList)), ("type".toList, (.obj [("items".toList, (.str "Node".toList)), ("type".toList, (.str "array".toList))]))])])), ("name".toList, (.str "Node".toList)), ("type".toList, (.str "record".toList))]))])])), ("name".toList, (.str "Interop".toList)), ("namespace".toList, (.str "org.apache.avro".toList)), ("type".toList, (.str "record".toList))])

example : onSchema interop (fun s => canonicalText s == some ("{\"name\":\"org.apa".toList ++ "che.avro.Interop".toList ++ "\",\"type\":\"record".toList ++ "\",\"fields\":[{\"na".toList ++ "me\":\"intField\",\"".toList ++ "type\":\"int\"},{\"n".toList ++ "ame\":\"longField\"".toList ++ ",\"type\":\"long\"},".toList ++ "{\"name\":\"stringF".toList ++ "ield\",\"type\":\"st".toList ++ "ring\"},{\"name\":\"".toList ++ "boolField\",\"type".toList ++ "\":\"boolean\"},{\"n".toList ++ "ame\":\"floatField".toList ++ "\",\"type\":\"float\"".toList ++ "},{\"name\":\"doubl".toList ++ "eField\",\"type\":\"".toList ++ "double\"},{\"name\"".toList ++ ":\"bytesField\",\"t".toList ++ "ype\":\"bytes\"},{\"".toList ++ "name\":\"nullField".toList ++ "\",\"type\":\"null\"}".toList ++ ",{\"name\":\"arrayF".toList ++ "ield\",\"type\":{\"t".toList ++ "ype\":\"array\",\"it".toList ++ "ems\":\"double\"}},".toList ++ "{\"name\":\"mapFiel".toList ++ "d\",\"type\":{\"type".toList ++ "\":\"map\",\"values\"".toList ++ ":{\"name\":\"org.ap".toList ++ "ache.avro.Foo\",\"".toList ++ "type\":\"record\",\"".toList ++ "fields\":[{\"name\"".toList ++ ":\"label\",\"type\":".toList ++ "\"string\"}]}}},{\"".toList ++ "name\":\"unionFiel".toList ++ "d\",\"type\":[\"bool".toList ++ "ean\",\"double\",{\"".toList ++ "type\":\"array\",\"i".toList ++ "tems\":\"bytes\"}]}".toList ++ ",{\"name\":\"enumFi".toList ++ "eld\",\"type\":{\"na".toList ++ "me\":\"org.apache.".toList ++ "avro.Kind\",\"type".toList ++ "\":\"enum\",\"symbol".toList ++ "s\":[\"A\",\"B\",\"C\"]".toList ++ "}},{\"name\":\"fixe".toList ++ "dField\",\"type\":{".toList ++ "\"name\":\"org.apac".toList ++ "he.avro.MD5\",\"ty".toList ++ "pe\":\"fixed\",\"siz".toList ++ "e\":16}},{\"name\":".toList ++ "\"recordField\",\"t".toList ++ "ype\":{\"name\":\"or".toList ++ "g.apache.avro.No".toList ++ "de\",\"type\":\"reco".toList ++ "rd\",\"fields\":[{\"".toList ++ "name\":\"label\",\"t".toList ++ "ype\":\"string\"},{".toList ++ "\"name\":\"children".toList ++ "\",\"type\":{\"type\"".toList ++ ":\"array\",\"items\"".toList ++ ":\"org.apache.avr".toList ++ "o.Node\"}}]}}]}".toList)) = true := by decide +kernel

example : Crc.avroCRC64Fingerprint [0x22, 0x69, 0x6e, 0x74, 0x22] = [0x8f, 0x5c, 0x39, 0x3f, 0x1a, 0xd5, 0x75, 0x72] := by decide +kernel
example : Crc.avroCRC64Fingerprint [0x22, 0x6c, 0x6f, 0x6e, 0x67, 0x22] = [0xb7, 0x1d, 0xf4, 0x93, 0x44, 0xe1, 0x54, 0xd0] := by decide +kernel
example : Crc.avroCRC64Fingerprint [0x22, 0x64, 0x6f, 0x75, 0x62, 0x6c, 0x65, 0x22] = [0x7e, 0x95, 0xab, 0x32, 0xc0, 0x35, 0x75, 0x8e] := by decide +kernel
example : Crc.avroCRC64Fingerprint [0x22, 0x62, 0x79, 0x74, 0x65, 0x73, 0x22] = [0x65, 0x19, 0x20, 0xc3, 0xda, 0x16, 0xc0, 0x4f] := by decide +kernel

/-! ### v10/generator/util_test.go -/

example : toPublicName "IntField".toList = "IntField".toList := by decide +kernel
example : toPublicName "_intField_".toList = "IntField".toList := by decide +kernel
example : toSnake "a".toList = "a".toList := by decide +kernel
example : toSnake "snake".toList = "snake".toList := by decide +kernel
example : toSnake "A".toList = "a".toList := by decide +kernel
example : toSnake "ID".toList = "id".toList := by decide +kernel
example : toSnake "MOTD".toList = "motd".toList := by decide +kernel
example : toSnake "Snake".toList = "snake".toList := by decide +kernel
example : toSnake "SnakeTest".toList = "snake_test".toList := by decide +kernel
example : toSnake "SnakeID".toList = "snake_id".toList := by decide +kernel
example : toSnake "SnakeIDGoogle".toList = "snake_id_google".toList := by decide +kernel
example : toSnake "LinuxMOTD".toList = "linux_motd".toList := by decide +kernel
example : toSnake "OMGWTFBBQ".toList = "omgwtfbbq".toList := by decide +kernel
example : toSnake "omg_wtf_bbq".toList = "omg_wtf_bbq".toList := by decide +kernel

/-! ### v10/cmd/gogen-avro/main_test.go -/

example : codegenComment true ["file_1.avsc".toList, "file_2.avsc".toList] = "// Code generated by github.com/actgardner/gogen-avro/v10. DO NOT EDIT.\n/*\n * SOURCES:\n *     file_1.avsc\n *     file_2.avsc\n */".toList := by decide +kernel
example : codegenComment true ["file_1.avsc".toList] = "// Code generated by github.com/actgardner/gogen-avro/v10. DO NOT EDIT.\n/*\n * SOURCE:\n *     file_1.avsc\n */".toList := by decide +kernel
example : codegenComment false ["file_1.avsc".toList, "file_2.avsc".toList] = "// Code generated by github.com/actgardner/gogen-avro/v10. DO NOT EDIT.".toList := by decide +kernel

/-! ### v10/soe/soe_test.go -/

example : (Soe.writeRecord ⟨[0x0c, 0x94, 0x7f, 0x60, 0x1d, 0xe7, 0xce, 0x84], ([], true)⟩).1.flatten =
    [0xc3, 0x01, 0x0c, 0x94, 0x7f, 0x60, 0x1d, 0xe7, 0xce, 0x84] := by decide +kernel
example : (match Soe.readHeader Soe.whole [0xc3, 0x01, 0x7f, 0x60, 0x1d, 0xe7, 0xce, 0x84, 0x01, 0x02, 0x03] with
    | .ok (h, rest) => h == [0x7f, 0x60, 0x1d, 0xe7, 0xce, 0x84, 0x01, 0x02] && rest.length == 1
    | .error _ => false) = true := by decide +kernel

/-! ### v10/schema/evolution_test.go -/

/-- `IsReadableBy` of the schemas of two documents. -/
def readable (w r : Json) : Option Bool := match parseSchema w, parseSchema r with
  | .ok s, .ok t => some (s.root.readableBy s.env t.env t.root)
  | _, _ => none

example : readable (.str "int".toList) (.str "int".toList) = some true := by decide +kernel
example : readable (.str "int".toList) (.str "long".toList) = some true := by decide +kernel
example : readable (.str "int".toList) (.str "float".toList) = some true := by decide +kernel
example : readable (.str "int".toList) (.str "double".toList) = some true := by decide +kernel
example : readable (.str "long".toList) (.str "long".toList) = some true := by decide +kernel
example : readable (.str "long".toList) (.str "float".toList) = some true := by decide +kernel
example : readable (.str "long".toList) (.str "double".toList) = some true := by decide +kernel
example : readable (.str "float".toList) (.str "float".toList) = some true := by decide +kernel
example : readable (.str "float".toList) (.str "double".toList) = some true := by decide +kernel
example : readable (.str "double".toList) (.str "double".toList) = some true := by decide +kernel
example : readable (.str "long".toList) (.str "int".toList) = some false := by decide +kernel
example : readable (.str "float".toList) (.str "int".toList) = some false := by decide +kernel
example : readable (.str "float".toList) (.str "long".toList) = some false := by decide +kernel
example : readable (.str "double".toList) (.str "int".toList) = some false := by decide +kernel
example : readable (.str "double".toList) (.str "long".toList) = some false := by decide +kernel
example : readable (.str "double".toList) (.str "float".toList) = some false := by decide +kernel
example : readable (.str "string".toList) (.str "bytes".toList) = some true := by decide +kernel
example : readable (.str "bytes".toList) (.str "string".toList) = some true := by decide +kernel
example : readable (.obj [("fields".toList, (.arr [(.obj [("name".toList, (.str "a".toList)), ("type".toList, (.str "int".toList))])])), ("name".toList, (.str "test".toList)), ("type".toList, (.str "record".toList))]) (.obj [("fields".toList, (.arr [(.obj [("name".toList, (.str "a".toList)), ("type".toList, (.str "long".toList))])])), ("name".toList, (.str "test".toList)), ("type".toList, (.str "record".toList))]) = some true := by decide +kernel
example : readable (.obj [("fields".toList, (.arr [(.obj [("name".toList, (.str "a".toList)), ("type".toList, (.str "int".toList))])])), ("name".toList, (.str "test".toList)), ("type".toList, (.str "record".toList))]) (.obj [("fields".toList, (.arr [(.obj [("name".toList, (.str "a".toList)), ("type".toList, (.str "string".toList))])])), ("name".toList, (.str "test".toList)), ("type".toList, (.str "record".toList))]) = some true := by decide +kernel
example : readable (.obj [("fields".toList, (.arr [(.obj [("name".toList, (.str "a".toList)), ("type".toList, (.str "int".toList))])])), ("name".toList, (.str "test".toList)), ("type".toList, (.str "record".toList))]) (.obj [("fields".toList, (.arr [(.obj [("name".toList, (.str "a".toList)), ("type".toList, (.str "long".toList))])])), ("name".toList, (.str "test2".toList)), ("type".toList, (.str "record".toList))]) = some false := by decide +kernel
example : readable (.str "boolean".toList) (.arr [(.str "boolean".toList), (.str "string".toList)]) = some true := by decide +kernel
example : readable (.str "int".toList) (.arr [(.str "int".toList), (.str "string".toList)]) = some true := by decide +kernel
example : readable (.str "long".toList) (.arr [(.str "long".toList), (.str "string".toList)]) = some true := by decide +kernel
example : readable (.str "float".toList) (.arr [(.str "float".toList), (.str "string".toList)]) = some true := by decide +kernel
example : readable (.str "double".toList) (.arr [(.str "double".toList), (.str "string".toList)]) = some true := by decide +kernel
example : readable (.str "string".toList) (.arr [(.str "double".toList), (.str "string".toList)]) = some true := by decide +kernel
example : readable (.str "bytes".toList) (.arr [(.str "double".toList), (.str "string".toList)]) = some true := by decide +kernel
example : readable (.obj [("items".toList, (.str "int".toList)), ("type".toList, (.str "array".toList))]) (.arr [(.str "string".toList), (.obj [("items".toList, (.str "int".toList)), ("type".toList, (.str "array".toList))])]) = some true := by decide +kernel
example : readable (.obj [("type".toList, (.str "map".toList)), ("values".toList, (.str "int".toList))]) (.arr [(.str "string".toList), (.obj [("type".toList, (.str "map".toList)), ("values".toList, (.str "int".toList))])]) = some true := by decide +kernel
example : readable (.obj [("fields".toList, (.arr [(.obj [("name".toList, (.str "a".toList)), ("type".toList, (.str "int".toList))])])), ("name".toList, (.str "test".toList)), ("type".toList, (.str "record".toList))]) (.arr [(.obj [("fields".toList, (.arr [(.obj [("name".toList, (.str "a".toList)), ("type".toList, (.str "int".toList))])])), ("name".toList, (.str "test".toList)), ("type".toList, (.str "record".toList))]), (.str "string".toList)]) = some true := by decide +kernel
example : readable (.arr [(.str "double".toList), (.str "string".toList)]) (.str "bytes".toList) = some true := by decide +kernel

/-! ### v10/generic/record_test.go -/

mutual
/-- Whether two values are the same. -/
def same : GVal → GVal → Bool
  | .nil, .nil => true
  | .bool a, .bool b => a == b
  | .int a, .int b => a == b
  | .long a, .long b => a == b
  | .bytes a, .bytes b => a == b
  | .string a, .string b => a == b
  | .symbol a, .symbol b => a == b
  | .list a, .list b => sames a b
  | .map a, .map b => sameEntries a b
  | .record a, .record b => sameFields a b
  | _, _ => false
def sames : List GVal → List GVal → Bool
  | [], [] => true
  | a :: l, b :: l' => same a b && sames l l'
  | _, _ => false
def sameEntries : List (List Byte × GVal) → List (List Byte × GVal) → Bool
  | [], [] => true
  | (k, a) :: l, (k', b) :: l' => k == k' && same a b && sameEntries l l'
  | _, _ => false
def sameFields : List (Str × GVal) → List (Str × GVal) → Bool
  | [], [] => true
  | (k, a) :: l, (k', b) :: l' => k == k' && same a b && sameFields l l'
  | _, _ => false
end

/-- `NewCodecFromSchema(s, s)` and `Deserialize`. -/
def decodes (j : Json) (data : List Byte) (v : GVal) : Bool := onSchema j fun s =>
  match compileFuel 20 Orders.id false s s with
  | .error _ => false
  | .ok prog => match evalProg (demo true).ro (gOps s.env (demo true).lim) prog 200 [data] (.new s.env s.root) with
    | .done (_, t) => match t.datum with
      | some g => same g v
      | none => false
    | _ => false

example : decodes (.obj [("fields".toList, (.arr [(.obj [("default".toList, (.num 1)), ("name".toList, (.str "intfield".toList)), ("type".toList, (.str "int".toList))]), (.obj [("default".toList, (.str "þ".toList)), ("name".toList, (.str "bytesfield".toList)), ("type".toList, (.str "bytes".toList))])])), ("name".toList, (.str "primitive".toList)), ("type".toList, (.str "record".toList))]) [2, 4, 104, 105] (.record [("intfield".toList, .int 1), ("bytesfield".toList, .bytes [104, 105])]) = true := by decide +kernel
example : decodes (.obj [("fields".toList, (.arr [(.obj [("name".toList, (.str "mapfield".toList)), ("type".toList, (.obj [("type".toList, (.str "map".toList)), ("values".toList, (.str "int".toList))]))]), (.obj [("name".toList, (.str "arrayfield".toList)), ("type".toList, (.obj [("items".toList, (.str "string".toList)), ("type".toList, (.str "array".toList))]))])])), ("name".toList, (.str "complex".toList)), ("type".toList, (.str "record".toList))]) [2, 6, 107, 101, 121, 7, 0, 4, 2, 97, 2, 98, 0] (.record [("mapfield".toList, .map [([107, 101, 121], .int (-4))]), ("arrayfield".toList, .list [.string [97], .string [98]])]) = true := by decide +kernel
example : decodes (.arr [(.str "int".toList), (.str "long".toList), (.str "string".toList)]) [0, 2] (.int 1) = true := by decide +kernel
example : decodes (.arr [(.str "int".toList), (.str "long".toList), (.str "string".toList)]) [2, 4] (.long 2) = true := by decide +kernel
example : decodes (.arr [(.str "int".toList), (.str "long".toList), (.str "string".toList)]) [4, 4, 104, 105] (.string [104, 105]) = true := by decide +kernel
example : decodes (.obj [("name".toList, (.str "testenum".toList)), ("symbols".toList, (.arr [(.str "ONE".toList), (.str "TWO".toList), (.str "THREE".toList)])), ("type".toList, (.str "enum".toList))]) [2] (.symbol "TWO".toList) = true := by decide +kernel
example : decodes (.obj [("name".toList, (.str "testenum".toList)), ("symbols".toList, (.arr [(.str "ONE".toList), (.str "TWO".toList), (.str "THREE".toList)])), ("type".toList, (.str "enum".toList))]) [4] (.symbol "THREE".toList) = true := by decide +kernel
example : decodes (.obj [("fields".toList, (.arr [(.obj [("name".toList, (.str "next".toList)), ("type".toList, (.arr [(.str "null".toList), (.str "elem".toList)]))]), (.obj [("name".toList, (.str "val".toList)), ("type".toList, (.str "int".toList))])])), ("name".toList, (.str "elem".toList)), ("type".toList, (.str "record".toList))]) [0, 1] (.record [("next".toList, .nil), ("val".toList, .int (-1))]) = true := by decide +kernel
example : decodes (.obj [("fields".toList, (.arr [(.obj [("name".toList, (.str "next".toList)), ("type".toList, (.arr [(.str "null".toList), (.str "elem".toList)]))]), (.obj [("name".toList, (.str "val".toList)), ("type".toList, (.str "int".toList))])])), ("name".toList, (.str "elem".toList)), ("type".toList, (.str "record".toList))]) [2, 0, 4, 2] (.record [("next".toList, .record [("next".toList, .nil), ("val".toList, .int 2)]), ("val".toList, .int 1)]) = true := by decide +kernel

/-! ### v10/container/avro: what `gogen-avro --package avro . block.avsc header.avsc` wrote -/

def block : Json := (.obj [("fields".toList, (.arr [(.obj [("name".toList, (.str "numRecords".toList)), ("type".toList, (.str "long".toList))]), (.obj [("name".toList, (.str "recordBytes".toList)), ("type".toList, (.str "bytes".toList))]), (.obj [("name".toList, (.str "sync".toList)), ("type".toList, (.obj [("name".toList, (.str "sync".toList)), ("size".toList, (.num 16)), ("type".toList, (.str "fixed".toList))]))])])), ("name".toList, (.str "AvroContainerBlock".toList)), ("type".toList, (.str "record".toList))])
def header : Json := (.obj [("fields".toList, (.arr [(.obj [("name".toList, (.str "magic".toList)), ("type".toList, (.obj [("name".toList, (.str "Magic".toList)), ("size".toList, (.num 4)), ("type".toList, (.str "fixed".toList))]))]), (.obj [("name".toList, (.str "meta".toList)), ("type".toList, (.obj [("type".toList, (.str "map".toList)), ("values".toList, (.str "bytes".toList))]))]), (.obj [("name".toList, (.str "sync".toList)), ("type".toList, (.obj [("name".toList, (.str "Sync".toList)), ("size".toList, (.num 16)), ("type".toList, (.str "fixed".toList))]))])])), ("name".toList, (.str "AvroContainerHeader".toList)), ("type".toList, (.str "record".toList))])

/-- The command read both documents. -/
def onBoth (p : NS → Bool) : Bool := match parseCommand false [block, header] with
  | .ok n => p n
  | .error _ => false

/-- The files. -/
example : onBoth (fun n => let fs := (generate .simple false n).map Prod.fst
    ["avro_container_block.go", "avro_container_header.go", "bytes.go", "magic.go", "map_bytes.go", "sync.go"].all (fun f => fs.contains f.toList) &&
      fs.length == 6) = true := by decide +kernel

/-- ASCII, and the letter in the fingerprint of a block. -/
def isPrint (c : Char) : Bool := asciiPrint c || c == '\u0654'

/-- The record of that name satisfies the test. -/
def onRecord (name : String) (p : NS → PDef → List PField → Str → Bool) : Bool := onBoth fun n => match n.find ⟨[], name.toList⟩ with
  | some d => match d.kind with
    | .record fs doc => p n d fs doc
    | _ => false
  | none => false

/-- The tree of the text that `Schema()` returns there. -/
def schemaOfAvroContainerBlock : Json := (.obj [("fields".toList, (.arr [(.obj [("name".toList, (.str "numRecords".toList)), ("type".toList, (.str "long".toList))]), (.obj [("name".toList, (.str "recordBytes".toList)), ("type".toList, (.str "bytes".toList))]), (.obj [("name".toList, (.str "sync".toList)), ("type".toList, (.obj [("name".toList, (.str "sync".toList)), ("size".toList, (.num 16)), ("type".toList, (.str "fixed".toList))]))])])), ("name".toList, (.str "AvroContainerBlock".toList)), ("type".toList, (.str "record".toList))])

example : onRecord "AvroContainerBlock" (fun n d _ _ => (recordSchema n d).any (Json.beq schemaOfAvroContainerBlock)) = true := by decide +kernel
example : onRecord "AvroContainerBlock" (fun n d fs doc => sameTokens (structText .simple n isPrint (d.goName .simple) doc fs)
    ("type AvroContain".toList ++ "erBlock struct {".toList ++ "\n\tNumRecords int".toList ++ "64 `json:\"numRec".toList ++ "ords\"`\n\n\tRecordB".toList ++ "ytes Bytes `json".toList ++ ":\"recordBytes\"`\n".toList ++ "\n\tSync Sync `jso".toList ++ "n:\"sync\"`\n}\n".toList)) = true := by decide +kernel
example : onRecord "AvroContainerBlock" (fun n d _ _ => ((recordFingerprint ⟨n.env, .ref d.name⟩).any fun f => fingerprintText isPrint (d.goName .simple) f ==
    "\nconst AvroContainerBlockAvroCRC64Fingerprint = \"\\x0e\\xecj@ٔ\\xe14\"\n".toList)) = true := by decide +kernel
example : schemaText isPrint "AvroContainerBlock".toList (utf8 ("{\"fields\":[{\"nam".toList ++ "e\":\"numRecords\",".toList ++ "\"type\":\"long\"},{".toList ++ "\"name\":\"recordBy".toList ++ "tes\",\"type\":\"byt".toList ++ "es\"},{\"name\":\"sy".toList ++ "nc\",\"type\":{\"nam".toList ++ "e\":\"sync\",\"size\"".toList ++ ":16,\"type\":\"fixe".toList ++ "d\"}}],\"name\":\"Av".toList ++ "roContainerBlock".toList ++ "\",\"type\":\"record".toList ++ "\"}".toList)) =
    ("\nfunc (r AvroCon".toList ++ "tainerBlock) Sch".toList ++ "ema() string {\n\t".toList ++ "return \"{\\\"field".toList ++ "s\\\":[{\\\"name\\\":\\".toList ++ "\"numRecords\\\",\\\"".toList ++ "type\\\":\\\"long\\\"}".toList ++ ",{\\\"name\\\":\\\"rec".toList ++ "ordBytes\\\",\\\"typ".toList ++ "e\\\":\\\"bytes\\\"},{".toList ++ "\\\"name\\\":\\\"sync\\".toList ++ "\",\\\"type\\\":{\\\"na".toList ++ "me\\\":\\\"sync\\\",\\\"".toList ++ "size\\\":16,\\\"type".toList ++ "\\\":\\\"fixed\\\"}}],".toList ++ "\\\"name\\\":\\\"AvroC".toList ++ "ontainerBlock\\\",".toList ++ "\\\"type\\\":\\\"recor".toList ++ "d\\\"}\"\n}\n".toList) := by decide +kernel
/-- The tree of the text that `Schema()` returns there. -/
def schemaOfAvroContainerHeader : Json := (.obj [("fields".toList, (.arr [(.obj [("name".toList, (.str "magic".toList)), ("type".toList, (.obj [("name".toList, (.str "Magic".toList)), ("size".toList, (.num 4)), ("type".toList, (.str "fixed".toList))]))]), (.obj [("name".toList, (.str "meta".toList)), ("type".toList, (.obj [("type".toList, (.str "map".toList)), ("values".toList, (.str "bytes".toList))]))]), (.obj [("name".toList, (.str "sync".toList)), ("type".toList, (.obj [("name".toList, (.str "Sync".toList)), ("size".toList, (.num 16)), ("type".toList, (.str "fixed".toList))]))])])), ("name".toList, (.str "AvroContainerHeader".toList)), ("type".toList, (.str "record".toList))])

example : onRecord "AvroContainerHeader" (fun n d _ _ => (recordSchema n d).any (Json.beq schemaOfAvroContainerHeader)) = true := by decide +kernel
example : onRecord "AvroContainerHeader" (fun n d fs doc => sameTokens (structText .simple n isPrint (d.goName .simple) doc fs)
    ("type AvroContain".toList ++ "erHeader struct ".toList ++ "{\n\tMagic Magic `".toList ++ "json:\"magic\"`\n\n\t".toList ++ "Meta map[string]".toList ++ "Bytes `json:\"met".toList ++ "a\"`\n\n\tSync Sync ".toList ++ "`json:\"sync\"`\n}\n".toList)) = true := by decide +kernel
example : onRecord "AvroContainerHeader" (fun n d _ _ => ((recordFingerprint ⟨n.env, .ref d.name⟩).any fun f => fingerprintText isPrint (d.goName .simple) f ==
    "\nconst AvroContainerHeaderAvroCRC64Fingerprint = \"\\xc0\\x12\\x03\\xc0wi\\xf96\"\n".toList)) = true := by decide +kernel
example : schemaText isPrint "AvroContainerHeader".toList (utf8 ("{\"fields\":[{\"nam".toList ++ "e\":\"magic\",\"type".toList ++ "\":{\"name\":\"Magic".toList ++ "\",\"size\":4,\"type".toList ++ "\":\"fixed\"}},{\"na".toList ++ "me\":\"meta\",\"type".toList ++ "\":{\"type\":\"map\",".toList ++ "\"values\":\"bytes\"".toList ++ "}},{\"name\":\"sync".toList ++ "\",\"type\":{\"name\"".toList ++ ":\"Sync\",\"size\":1".toList ++ "6,\"type\":\"fixed\"".toList ++ "}}],\"name\":\"Avro".toList ++ "ContainerHeader\"".toList ++ ",\"type\":\"record\"".toList ++ "}".toList)) =
    ("\nfunc (r AvroCon".toList ++ "tainerHeader) Sc".toList ++ "hema() string {\n".toList ++ "\treturn \"{\\\"fiel".toList ++ "ds\\\":[{\\\"name\\\":".toList ++ "\\\"magic\\\",\\\"type".toList ++ "\\\":{\\\"name\\\":\\\"M".toList ++ "agic\\\",\\\"size\\\":".toList ++ "4,\\\"type\\\":\\\"fix".toList ++ "ed\\\"}},{\\\"name\\\"".toList ++ ":\\\"meta\\\",\\\"type".toList ++ "\\\":{\\\"type\\\":\\\"m".toList ++ "ap\\\",\\\"values\\\":".toList ++ "\\\"bytes\\\"}},{\\\"n".toList ++ "ame\\\":\\\"sync\\\",\\".toList ++ "\"type\\\":{\\\"name\\".toList ++ "\":\\\"Sync\\\",\\\"siz".toList ++ "e\\\":16,\\\"type\\\":".toList ++ "\\\"fixed\\\"}}],\\\"n".toList ++ "ame\\\":\\\"AvroCont".toList ++ "ainerHeader\\\",\\\"".toList ++ "type\\\":\\\"record\\".toList ++ "\"}\"\n}\n".toList) := by decide +kernel
example : sameTokens (fixedText "Magic".toList 4) "type Magic [4]byte\n".toList = true := by decide +kernel

end Verif.Props.Vectors
