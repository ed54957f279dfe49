{"id": "C01", "title": "long values survive the wire", "statement": "Writing any int64 with vm.WriteLong and decoding the result under schema \"long\" yields the same number and leaves every following byte unread.", "quantifier": "every int64 value, every byte sequence that follows it, both reader kinds", "why_tests_cant": "2^64 values times arbitrary trailing data; tests sample a handful of magnitudes", "anchors": ["v10/vm/writers.go:WriteLong,encodeInt", "v10/vm/readers.go:readLong"]}
{"id": "C02", "title": "int values survive the wire", "statement": "Writing any int32 with vm.WriteInt and decoding it under schema \"int\" yields the same number and leaves every following byte unread.", "quantifier": "every int32 value, every trailing byte sequence, both reader kinds", "why_tests_cant": "2^32 values times arbitrary trailing data", "anchors": ["v10/vm/writers.go:WriteInt,encodeInt", "v10/vm/readers.go:readInt"]}
{"id": "C03", "title": "integers are written in Avro's zig-zag base-128 form", "statement": "The bytes written for an int or long are exactly the minimal little-endian base-128 digits of the zig-zag image of the number: every byte but the last has its high bit set, the last has not, there is no redundant final zero digit, and there are at most 5 (int) or 10 (long) bytes.", "quantifier": "every int32 and every int64", "why_tests_cant": "a conformance claim over the whole domain; samples do not exclude a wrong boundary at one magnitude", "anchors": ["v10/vm/writers.go:WriteInt,WriteLong,encodeInt"]}
{"id": "C04", "title": "float and double values survive bit for bit", "statement": "Writing a float or double and decoding it gives back the same IEEE bit pattern, including NaN payloads and signed zeros; the wire form is little-endian, 4 or 8 bytes.", "quantifier": "every 32-bit and 64-bit pattern, every trailing byte sequence", "why_tests_cant": "2^64 bit patterns", "anchors": ["v10/vm/writers.go:WriteFloat,WriteDouble,encodeFloat", "v10/vm/readers.go:readFloat,readDouble"]}
{"id": "C05", "title": "bytes and strings survive, over-long and negative lengths are refused", "statement": "Every byte string of at most 2^31-1 bytes round-trips through WriteBytes/WriteString and the decoder; every length prefix below zero or above 2^31-1 is answered with an error and no data.", "quantifier": "every byte string, every length prefix, every trailing byte sequence", "why_tests_cant": "unbounded lengths; boundary at 2^31-1 is impractical to test", "anchors": ["v10/vm/writers.go:WriteBytes,WriteString", "v10/vm/readers.go:readBytes,readString"]}
{"id": "C06", "title": "booleans survive the wire", "statement": "true is written as byte 1 and false as byte 0, both decode to themselves; every other byte decodes as false.", "quantifier": "both booleans, all 256 byte values, every trailing byte sequence", "why_tests_cant": "cheap alone, but needed for all trailing data and both reader kinds", "anchors": ["v10/vm/writers.go:WriteBool", "v10/vm/readers.go:readBool"]}
{"id": "C07", "title": "int and long share one wire form", "statement": "Bytes written for an int32 decode under \"long\" to the same number, which is what schema promotion int->long and the enum/union index encodings rely on.", "quantifier": "every int32, every trailing byte sequence", "why_tests_cant": "2^32 values", "anchors": ["v10/vm/writers.go:WriteInt", "v10/vm/readers.go:readLong", "v10/compiler/method.go:compileEnum"]}
{"id": "C08", "title": "how the reader delivers bytes does not matter", "statement": "Decoding gives the same outcome whether the io.Reader offers ReadByte or only Read, and however a plain Read splits the data into pieces.", "quantifier": "Every compiled program, every input, every way of cutting the input into chunks. Schemas are regular: names resolve and are unambiguous, fields and aliases of a record have distinct names, enum symbols are distinct, a null of the writer is not read as a union nor a union with null as null (never so when both schemas are the same), no union directly in a union, fixed sizes are not negative, different records have different Go names, no record can be read as two, no definition is called like a built-in type (Int, String, ...), no record contains itself through record fields alone, and the reader's root is a record or a union. C25-C28 say what happens otherwise.", "why_tests_cant": "the schedule of short reads is chosen by the environment; there are exponentially many", "anchors": ["v10/vm/readers.go", "v10/vm/eval.go:Eval"]}
{"id": "C09", "title": "how the writer accepts bytes does not matter", "statement": "Serialize emits the same byte sequence to a ByteWriter as to a plain io.Writer; if the writer fails, Serialize reports an error and what was accepted is a prefix of the full encoding.", "quantifier": "every datum, every failure point of the writer", "why_tests_cant": "a failure can happen at every byte of every encoding", "anchors": ["v10/vm/writers.go:encodeInt,encodeFloat,WriteBool", "v10/generator/flat/templates"]}
{"id": "C10", "title": "a truncated primitive is an error", "statement": "Decoding any proper prefix of an encoded primitive returns an error, never a value.", "quantifier": "every primitive value, every proper prefix, both reader kinds", "why_tests_cant": "every cut point of every encoding", "anchors": ["v10/vm/readers.go"]}
{"id": "C11", "title": "Serialize then Deserialize is the identity", "statement": "For every schema, recursive ones included, and every value of the generated Go type, deserializing the serialized bytes with the same schema yields the original value.", "quantifier": "Every schema whose record names are distinct as Go names, every well-formed value, every map iteration order, every trailing data. Schemas are regular: names resolve and are unambiguous, fields and aliases of a record have distinct names, enum symbols are distinct, a null of the writer is not read as a union nor a union with null as null (never so when both schemas are the same), no union directly in a union, fixed sizes are not negative, different records have different Go names, no record can be read as two, no definition is called like a built-in type (Int, String, ...), no record contains itself through record fields alone, and the reader's root is a record or a union. C25-C28 say what happens otherwise.", "why_tests_cant": "the space of schemas and values is infinite and nested", "anchors": ["v10/generator/flat/templates", "v10/compiler/method.go", "v10/vm/eval.go:evalInner"]}
{"id": "C12", "title": "records are self-delimiting", "statement": "Decoding consumes exactly the bytes of one datum: data following it does not influence the result and is left for the next decode, so a stream of serialized records decodes to the same sequence.", "quantifier": "Every schema, every list of values, every trailing data. Schemas are regular: names resolve and are unambiguous, fields and aliases of a record have distinct names, enum symbols are distinct, a null of the writer is not read as a union nor a union with null as null (never so when both schemas are the same), no union directly in a union, fixed sizes are not negative, different records have different Go names, no record can be read as two, no definition is called like a built-in type (Int, String, ...), no record contains itself through record fields alone, and the reader's root is a record or a union. C25-C28 say what happens otherwise.", "why_tests_cant": "arbitrary concatenations", "anchors": ["v10/vm/eval.go:Eval", "v10/compiler/compile.go:Compile"]}
{"id": "C13", "title": "encodings are unambiguous", "statement": "Two different values of a type never serialize to the same bytes, and no encoding is a proper prefix of another value's encoding.", "quantifier": "Every schema, every pair of values. Schemas are regular: names resolve and are unambiguous, fields and aliases of a record have distinct names, enum symbols are distinct, a null of the writer is not read as a union nor a union with null as null (never so when both schemas are the same), no union directly in a union, fixed sizes are not negative, different records have different Go names, no record can be read as two, no definition is called like a built-in type (Int, String, ...), no record contains itself through record fields alone, and the reader's root is a record or a union. C25-C28 say what happens otherwise.", "why_tests_cant": "pairs of values over infinite types", "anchors": ["v10/generator/flat/templates", "v10/vm/writers.go"]}
{"id": "C14", "title": "any legal block layout of arrays and maps decodes alike", "statement": "Arrays and maps split into any number of blocks, each with a positive count or a negative count followed by a byte size, decode to the same collection as the single-block form.", "quantifier": "Every array/map value, every way to split it into non-empty blocks, either block form. Schemas are regular: names resolve and are unambiguous, fields and aliases of a record have distinct names, enum symbols are distinct, a null of the writer is not read as a union nor a union with null as null (never so when both schemas are the same), no union directly in a union, fixed sizes are not negative, different records have different Go names, no record can be read as two, no definition is called like a built-in type (Int, String, ...), no record contains itself through record fields alone, and the reader's root is a record or a union. C25-C28 say what happens otherwise.", "why_tests_cant": "writers of other Avro implementations choose the layout; the number of partitions is exponential", "anchors": ["v10/compiler/instruction.go:blockStartIRInstruction,blockEndIRInstruction", "v10/compiler/method.go:compileArray,compileMap"]}
{"id": "C15", "title": "map iteration order is invisible", "statement": "Whatever order Go iterates a map in while serializing, the reader reconstructs the same map.", "quantifier": "Every map value at every nesting depth, every iteration order at every map. Schemas are regular: names resolve and are unambiguous, fields and aliases of a record have distinct names, enum symbols are distinct, a null of the writer is not read as a union nor a union with null as null (never so when both schemas are the same), no union directly in a union, fixed sizes are not negative, different records have different Go names, no record can be read as two, no definition is called like a built-in type (Int, String, ...), no record contains itself through record fields alone, and the reader's root is a record or a union. C25-C28 say what happens otherwise.", "why_tests_cant": "Go randomises the order; n! orders per map", "anchors": ["v10/generator/flat/templates/map.go"]}
{"id": "C16", "title": "repeated map keys: the last one wins", "statement": "When the wire data repeats a key inside a map, the decoded map holds the last value for it, in generated and generic decoding alike.", "quantifier": "Every sequence of key/value entries. Schemas are regular: names resolve and are unambiguous, fields and aliases of a record have distinct names, enum symbols are distinct, a null of the writer is not read as a union nor a union with null as null (never so when both schemas are the same), no union directly in a union, fixed sizes are not negative, different records have different Go names, no record can be read as two, no definition is called like a built-in type (Int, String, ...), no record contains itself through record fields alone, and the reader's root is a record or a union. C25-C28 say what happens otherwise.", "why_tests_cant": "arbitrary sequences and block layouts", "anchors": ["v10/generator/flat/templates/map.go", "v10/generic/map.go"]}
{"id": "C17", "title": "a truncated datum is an error", "statement": "Decoding any proper prefix of a serialized datum returns an error, never a value, when the reader is a plain io.Reader.", "quantifier": "Every schema, every value, every cut point. Schemas are regular: names resolve and are unambiguous, fields and aliases of a record have distinct names, enum symbols are distinct, a null of the writer is not read as a union nor a union with null as null (never so when both schemas are the same), no union directly in a union, fixed sizes are not negative, different records have different Go names, no record can be read as two, no definition is called like a built-in type (Int, String, ...), no record contains itself through record fields alone, and the reader's root is a record or a union. C25-C28 say what happens otherwise.", "why_tests_cant": "cut points of every encoding; a crash can truncate anywhere", "anchors": ["v10/vm/readers.go", "v10/vm/eval.go"]}
{"id": "C18", "title": "out-of-range union and enum indices are refused", "statement": "A union or enum index that names no branch or symbol of the writer schema makes decoding fail with an error.", "quantifier": "Every union/enum schema, every int64 index outside the range, every trailing data. Schemas are regular: names resolve and are unambiguous, fields and aliases of a record have distinct names, enum symbols are distinct, a null of the writer is not read as a union nor a union with null as null (never so when both schemas are the same), no union directly in a union, fixed sizes are not negative, different records have different Go names, no record can be read as two, no definition is called like a built-in type (Int, String, ...), no record contains itself through record fields alone, and the reader's root is a record or a union. C25-C28 say what happens otherwise.", "why_tests_cant": "2^64 indices per schema", "anchors": ["v10/compiler/instruction.go:switchStartIRInstruction", "v10/compiler/method.go:compileUnion,compileEnum"]}
{"id": "C19", "title": "decoding terminates on every input", "statement": "For schemas in which a record does not contain itself without a union, array or map in between, decoding any finite input ends with a value or an error.", "quantifier": "Every such schema pair, every byte sequence. Schemas are regular: names resolve and are unambiguous, fields and aliases of a record have distinct names, enum symbols are distinct, a null of the writer is not read as a union nor a union with null as null (never so when both schemas are the same), no union directly in a union, fixed sizes are not negative, different records have different Go names, no record can be read as two, no definition is called like a built-in type (Int, String, ...), no record contains itself through record fields alone, and the reader's root is a record or a union. C25-C28 say what happens otherwise.", "why_tests_cant": "all inputs, including hostile ones", "anchors": ["v10/vm/eval.go:evalInner"]}
{"id": "C20", "title": "no look-ahead", "statement": "If decoding succeeds on an input, it succeeds with the same value on that input followed by anything.", "quantifier": "Every schema, every input, every continuation. Schemas are regular: names resolve and are unambiguous, fields and aliases of a record have distinct names, enum symbols are distinct, a null of the writer is not read as a union nor a union with null as null (never so when both schemas are the same), no union directly in a union, fixed sizes are not negative, different records have different Go names, no record can be read as two, no definition is called like a built-in type (Int, String, ...), no record contains itself through record fields alone, and the reader's root is a record or a union. C25-C28 say what happens otherwise.", "why_tests_cant": "arbitrary continuations", "anchors": ["v10/vm/readers.go", "v10/vm/eval.go"]}
{"id": "C21", "title": "every field of a decoded record is assigned", "statement": "After a successful decode each field of each decoded record holds either data from the wire or the declared default, never a left-over of the target.", "quantifier": "Every schema pair, every input, every initial state of the target. Schemas are regular: names resolve and are unambiguous, fields and aliases of a record have distinct names, enum symbols are distinct, a null of the writer is not read as a union nor a union with null as null (never so when both schemas are the same), no union directly in a union, fixed sizes are not negative, different records have different Go names, no record can be read as two, no definition is called like a built-in type (Int, String, ...), no record contains itself through record fields alone, and the reader's root is a record or a union. C25-C28 say what happens otherwise.", "why_tests_cant": "left-overs depend on history of the target object", "anchors": ["v10/compiler/method.go:compileRecord", "v10/vm/eval.go"]}
{"id": "C22", "title": "the compiled program implements Avro schema resolution", "statement": "Running the program compiled for a writer and a reader schema on the encoding of a datum gives exactly the datum that Avro's resolution rules give, or an error exactly when they give an error.", "quantifier": "Every pair of schemas for which Compile succeeds (side conditions: C26-C28), every datum, every trailing data. Schemas are regular: names resolve and are unambiguous, fields and aliases of a record have distinct names, enum symbols are distinct, a null of the writer is not read as a union nor a union with null as null (never so when both schemas are the same), no union directly in a union, fixed sizes are not negative, different records have different Go names, no record can be read as two, no definition is called like a built-in type (Int, String, ...), no record contains itself through record fields alone, and the reader's root is a record or a union. C25-C28 say what happens otherwise.", "why_tests_cant": "the product of all schema pairs and all data", "anchors": ["v10/compiler/compile.go:Compile", "v10/compiler/method.go", "v10/compiler/program.go", "v10/vm/eval.go"]}
{"id": "C23", "title": "Go's random map order does not change what a program does", "statement": "compile iterates over Go maps (methods, switch cases, defaulted fields); every order yields programs with the same observable behaviour.", "quantifier": "Every schema pair, every iteration order of every map, every input. Schemas are regular: names resolve and are unambiguous, fields and aliases of a record have distinct names, enum symbols are distinct, a null of the writer is not read as a union nor a union with null as null (never so when both schemas are the same), no union directly in a union, fixed sizes are not negative, different records have different Go names, no record can be read as two, no definition is called like a built-in type (Int, String, ...), no record contains itself through record fields alone, and the reader's root is a record or a union. C25-C28 say what happens otherwise.", "why_tests_cant": "orders are chosen by the runtime; factorially many", "anchors": ["v10/compiler/program.go:CompileToVM", "v10/compiler/instruction.go:switchStartIRInstruction", "v10/compiler/method.go:compileRecord"]}
{"id": "C24", "title": "Compile terminates on every schema pair", "statement": "Compile returns (a program or an error) for every writer/reader pair, including mutually recursive records.", "quantifier": "every pair of finite schemas", "why_tests_cant": "infinitely many recursive schemas", "anchors": ["v10/compiler/compile.go", "v10/compiler/method.go:compileRef,compileRecord"]}
{"id": "C25", "title": "compiled programs are well-formed", "statement": "Every instruction's jump or call target lies inside the program and every Halt refers to an existing error, so evaluation never runs into an out-of-range access.", "quantifier": "every pair of schemas for which Compile succeeds, every map order", "why_tests_cant": "all programs the compiler can emit", "anchors": ["v10/compiler/program.go:CompileToVM,findOffsets", "v10/compiler/instruction.go"]}
{"id": "C26", "title": "record types of the same short name are decoded independently", "statement": "Two different writer record types are always decoded with their own layout, also when they share the last component of their name.", "quantifier": "every writer schema", "why_tests_cant": "needs schemas nobody wrote a fixture for", "anchors": ["v10/compiler/method.go:compileRef", "v10/schema/definition.go", "v10/generator/namer.go"]}
{"id": "C27", "title": "one writer record read as two reader records", "statement": "When reader aliases map the same writer record to two different reader records, each occurrence is decoded into its own reader record layout.", "quantifier": "every schema pair using aliases on records", "why_tests_cant": "combination space of aliases", "anchors": ["v10/compiler/method.go:compileRef"]}
{"id": "C28", "title": "reading a nullable union as null", "statement": "Data written under a union that contains null is readable under the reader schema null when the null branch was written.", "quantifier": "every union schema, every position of null in it", "why_tests_cant": "position and size of the union vary", "anchors": ["v10/compiler/method.go:compileUnion", "v10/compiler/instruction.go:switchStartIRInstruction.VMLength"]}
{"id": "C29", "title": "numeric promotion preserves the number", "statement": "int, long and float data read as long, float or double yields the mathematically corresponding value: sign extension for int->long, Go's conversion to the nearest float otherwise, exact for int->double and float->double.", "quantifier": "Every number of each type, each promotion pair. Schemas are regular: names resolve and are unambiguous, fields and aliases of a record have distinct names, enum symbols are distinct, a null of the writer is not read as a union nor a union with null as null (never so when both schemas are the same), no union directly in a union, fixed sizes are not negative, different records have different Go names, no record can be read as two, no definition is called like a built-in type (Int, String, ...), no record contains itself through record fields alone, and the reader's root is a record or a union. C25-C28 say what happens otherwise.", "why_tests_cant": "2^64 values per pair", "anchors": ["v10/vm/types", "v10/schema/int.go,long.go,float.go"]}
{"id": "C30", "title": "fields are matched by name", "statement": "Reordering the reader's fields, adding defaulted fields and dropping fields does not change the values of the remaining fields.", "quantifier": "Every writer/reader record pair, every datum. Schemas are regular: names resolve and are unambiguous, fields and aliases of a record have distinct names, enum symbols are distinct, a null of the writer is not read as a union nor a union with null as null (never so when both schemas are the same), no union directly in a union, fixed sizes are not negative, different records have different Go names, no record can be read as two, no definition is called like a built-in type (Int, String, ...), no record contains itself through record fields alone, and the reader's root is a record or a union. C25-C28 say what happens otherwise.", "why_tests_cant": "combinations of field sets and types", "anchors": ["v10/compiler/method.go:compileRecord", "v10/schema/record.go:FieldByName"]}
{"id": "C31", "title": "aliases match renamed fields", "statement": "A reader field with an alias equal to the writer's field name receives the writer's data.", "quantifier": "Every record pair, every datum. Schemas are regular: names resolve and are unambiguous, fields and aliases of a record have distinct names, enum symbols are distinct, a null of the writer is not read as a union nor a union with null as null (never so when both schemas are the same), no union directly in a union, fixed sizes are not negative, different records have different Go names, no record can be read as two, no definition is called like a built-in type (Int, String, ...), no record contains itself through record fields alone, and the reader's root is a record or a union. C25-C28 say what happens otherwise.", "why_tests_cant": "combinations of names and aliases", "anchors": ["v10/schema/record.go:FieldByName", "v10/schema/field.go:NameMatchesAliases"]}
{"id": "C32", "title": "enum symbols are matched by name", "statement": "An enum datum is read as the reader's symbol of the same name, whatever its position; if there is none, the reader's default is used, and without default decoding fails.", "quantifier": "Every pair of enum schemas, every symbol. Schemas are regular: names resolve and are unambiguous, fields and aliases of a record have distinct names, enum symbols are distinct, a null of the writer is not read as a union nor a union with null as null (never so when both schemas are the same), no union directly in a union, fixed sizes are not negative, different records have different Go names, no record can be read as two, no definition is called like a built-in type (Int, String, ...), no record contains itself through record fields alone, and the reader's root is a record or a union. C25-C28 say what happens otherwise.", "why_tests_cant": "all symbol lists and permutations", "anchors": ["v10/compiler/method.go:compileEnum", "v10/schema/enum.go:SymbolIndex"]}
{"id": "C33", "title": "union branches are matched", "statement": "A writer union branch is read into the reader's branch of the same type name if there is one, else the first branch that can read it, else decoding fails.", "quantifier": "Every pair of unions (or union and non-union), every datum. Schemas are regular: names resolve and are unambiguous, fields and aliases of a record have distinct names, enum symbols are distinct, a null of the writer is not read as a union nor a union with null as null (never so when both schemas are the same), no union directly in a union, fixed sizes are not negative, different records have different Go names, no record can be read as two, no definition is called like a built-in type (Int, String, ...), no record contains itself through record fields alone, and the reader's root is a record or a union. C25-C28 say what happens otherwise.", "why_tests_cant": "all branch lists and orders", "anchors": ["v10/compiler/method.go:compileUnion"]}
{"id": "C34", "title": "incompatible schemas are refused by Compile", "statement": "If the reader's type cannot read the writer's type, Compile returns an error rather than a program.", "quantifier": "Every schema pair. Schemas are regular: names resolve and are unambiguous, fields and aliases of a record have distinct names, enum symbols are distinct, a null of the writer is not read as a union nor a union with null as null (never so when both schemas are the same), no union directly in a union, fixed sizes are not negative, different records have different Go names, no record can be read as two, no definition is called like a built-in type (Int, String, ...), no record contains itself through record fields alone, and the reader's root is a record or a union. C25-C28 say what happens otherwise.", "why_tests_cant": "all pairs", "anchors": ["v10/compiler/compile.go:Compile", "v10/compiler/method.go:compileType"]}
{"id": "C35", "title": "IsReadableBy implements the resolution table", "statement": "IsReadableBy agrees with Avro's promotion table, is reflexive on resolved schemas without empty unions, and treats unions existentially.", "quantifier": "every pair of types", "why_tests_cant": "all nested types", "anchors": ["v10/schema/*.go:IsReadableBy"]}
{"id": "C36", "title": "strings and bytes are interchangeable", "statement": "Data written as string reads as bytes and conversely, with the same octets.", "quantifier": "Every byte string. Schemas are regular: names resolve and are unambiguous, fields and aliases of a record have distinct names, enum symbols are distinct, a null of the writer is not read as a union nor a union with null as null (never so when both schemas are the same), no union directly in a union, fixed sizes are not negative, different records have different Go names, no record can be read as two, no definition is called like a built-in type (Int, String, ...), no record contains itself through record fields alone, and the reader's root is a record or a union. C25-C28 say what happens otherwise.", "why_tests_cant": "all strings including invalid UTF-8", "anchors": ["v10/schema/string.go", "v10/schema/bytes.go", "v10/vm/types/string.go"]}
{"id": "C37", "title": "generic decoding yields the datum", "statement": "generic.Codec.Deserialize returns, for every schema and datum written with it, the Go value that represents the datum (maps for records, slices for arrays, nil for null) and never panics.", "quantifier": "every schema, every datum, every input", "why_tests_cant": "all schemas and data", "anchors": ["v10/generic"]}
{"id": "C38", "title": "generic decoding follows the reader schema's types", "statement": "generic.Codec.Deserialize returns values of the Go type belonging to the reader schema, also after promotion or when a default is used.", "quantifier": "every schema pair, every datum", "why_tests_cant": "all pairs", "anchors": ["v10/generic/primitive.go", "v10/generic/record.go:SetDefault"]}
{"id": "C39", "title": "container files return the records that were written", "statement": "For every sequence of WriteRecord and Flush calls ended by Flush, reading the file yields exactly the records written, in order.", "quantifier": "every record sequence, every placement of Flush, every recordsPerBlock, every codec whose decompression inverts compression", "why_tests_cant": "interleavings of flushes and block boundaries are unbounded", "anchors": ["v10/container/writer.go", "v10/container/reader.go"]}
{"id": "C40", "title": "container files have the specified structure", "statement": "The file consists of one header and blocks; each block's count equals the number of records in it and is between 1 and recordsPerBlock, and each block ends with the header's sync marker.", "quantifier": "every history of writer calls", "why_tests_cant": "every history", "anchors": ["v10/container/writer.go:WriteRecord,Flush,writeHeader"]}
{"id": "C41", "title": "Flush is idempotent and leaves nothing behind", "statement": "After a successful Flush nothing is buffered; flushing again writes nothing; a writer flushed without records writes just the header.", "quantifier": "every history of writer calls", "why_tests_cant": "every history", "anchors": ["v10/container/writer.go:Flush"]}
{"id": "C42", "title": "a cut-off container file loses only its unfinished tail", "statement": "Reading any prefix of a container file yields exactly the records of the blocks that are complete in it, in order, and then an error.", "quantifier": "every file, every cut point", "why_tests_cant": "a crash can cut the file anywhere", "anchors": ["v10/container/reader.go:Read,openBlock"]}
{"id": "C43", "title": "foreign files are refused", "statement": "NewReader returns an error for data that does not start with the container magic, and reading reports an error for a block whose sync marker differs from the header's.", "quantifier": "every input", "why_tests_cant": "all inputs", "anchors": ["v10/container/reader.go:NewReader,openBlock"]}
{"id": "C44", "title": "io.EOF means a clean end", "statement": "Reading a container returns io.EOF only if the file ends at a block boundary.", "quantifier": "every file, every cut point", "why_tests_cant": "all cut points", "anchors": ["v10/container/reader.go:Read,openBlock"]}
{"id": "C45", "title": "a record that fails to serialize does not damage the file", "statement": "If WriteRecord returns an error because the record cannot be serialized, the records written before and after are still readable.", "quantifier": "every history of writer calls with failing records", "why_tests_cant": "every history", "anchors": ["v10/container/writer.go:WriteRecord"]}
{"id": "C46", "title": "every record is in the file or pending", "statement": "At any time the records accepted by WriteRecord are exactly those in complete blocks of the output followed by those in the pending block, and fewer than recordsPerBlock are pending.", "quantifier": "every history of writer calls", "why_tests_cant": "every history", "anchors": ["v10/container/writer.go"]}
{"id": "C47", "title": "reading a container stops after the last record", "statement": "Reading records from a container until io.EOF yields as many records as were written and terminates.", "quantifier": "every record sequence, every record schema", "why_tests_cant": "includes records whose encoding is empty", "anchors": ["v10/container/reader.go"]}
{"id": "C48", "title": "single-object encoding round-trips and is checked", "statement": "soe.WriteRecord followed by ReadHeader gives the record's fingerprint and leaves the record's encoding; input not starting with C3 01 is refused.", "quantifier": "every record, every input", "why_tests_cant": "all inputs", "anchors": ["v10/soe/soe.go"]}
{"id": "C49", "title": "single-object header reading tolerates short reads", "statement": "ReadHeader gives the same result however the io.Reader splits the ten header bytes.", "quantifier": "every header, every chunking", "why_tests_cant": "schedules of short reads", "anchors": ["v10/soe/soe.go:ReadHeader"]}
{"id": "C50", "title": "the fingerprint is CRC-64-AVRO", "statement": "The table-driven fingerprint equals the bit-by-bit definition of CRC-64-AVRO for every byte sequence.", "quantifier": "every byte sequence", "why_tests_cant": "unbounded inputs", "anchors": ["v10/schema/canonical/crc.go"]}
{"id": "C51", "title": "fingerprints detect local changes", "statement": "Two schemas' canonical forms of the same length that differ only within 8 consecutive bytes have different fingerprints.", "quantifier": "every pair of such byte sequences", "why_tests_cant": "pairs of unbounded inputs", "anchors": ["v10/schema/canonical/crc.go"]}
{"id": "C52", "title": "the canonical form ignores irrelevant attributes", "statement": "Schema documents that differ only in documentation, aliases, defaults, the order of attributes and other attributes the Avro specification ignores (and in writing a primitive as a name or an object) have the same canonical form and the same fingerprint, as long as definitions are mentioned by name and not by alias.", "quantifier": "every schema, every choice of the ignored attributes", "why_tests_cant": "all schemas", "anchors": ["v10/schema/canonical/canonical.go"]}
{"id": "C53", "title": "equal canonical forms mean interchangeable data", "statement": "If two parsed schemas have the same canonical form (as JSON text) then they have the same names, fields, symbols and sizes, and every datum has the same encodings under both.", "quantifier": "every pair of schemas, every datum", "why_tests_cant": "pairs of schemas", "anchors": ["v10/schema/canonical/canonical.go"]}
{"id": "C54", "title": "names resolve by Avro's namespace rules", "statement": "A dotted name denotes itself; an undotted one is taken in the enclosing namespace; printing a full name and parsing it again gives the name back, exactly if it has a namespace or is parsed outside of any.", "quantifier": "every name and enclosing namespace", "why_tests_cant": "all strings", "anchors": ["v10/parser/namespace.go:ParseAvroName", "v10/parser/qualified_name.go", "v10/schema/qualified_name.go"]}
{"id": "C55", "title": "a parsed schema is fully resolved", "statement": "ParseSchema always ends. If it succeeds, every named type reachable from the result has its definition; it succeeds exactly for the documents that describe a schema by the rules for schema documents, define no name twice and leave none undefined; for all others it returns an error.", "quantifier": "every JSON schema document", "why_tests_cant": "all documents", "anchors": ["v10/compiler/compile.go:ParseSchema", "v10/resolver/resolver.go", "v10/parser/namespace.go"]}
{"id": "C56", "title": "a name has one definition", "statement": "Registering a definition under a name or alias already taken by a different definition is an error; registering an equal one again changes nothing; no registration, not even a refused one, changes what a name already denotes.", "quantifier": "every sequence of registrations", "why_tests_cant": "all histories", "anchors": ["v10/parser/namespace.go:RegisterDefinition"]}
{"id": "C57", "title": "byte strings survive JSON", "statement": "Bytes encoded with EncodeByteString, parsed as a JSON string and decoded with DecodeByteString are unchanged; different bytes have different encodings; decoding returns one byte per character.", "quantifier": "every byte sequence", "why_tests_cant": "all byte sequences", "anchors": ["v10/util/bytes.go"]}
{"id": "C58", "title": "generated names are exported Go identifiers", "statement": "The Go name of every type and field whose Avro name is legal starts with an upper-case letter or is otherwise usable, and field names do not clash with the methods the generator adds.", "quantifier": "every legal Avro name", "why_tests_cant": "all names", "anchors": ["v10/generator/util.go", "v10/schema/field.go:GoName,invalidFieldNames"]}
{"id": "C59", "title": "distinct definitions get distinct files", "statement": "Generating code for a set of definitions writes every definition to the output; none overwrites another.", "quantifier": "every set of definitions", "why_tests_cant": "all name sets", "anchors": ["v10/generator/package.go:AddFile", "v10/generator/flat/generator.go"]}
{"id": "C60", "title": "decoding is a function of schema and bytes", "statement": "Two evaluations of programs compiled from the same schemas on the same bytes give the same outcome, and the result does not depend on the target's previous content.", "quantifier": "Every schema pair, every input, every target history. Schemas are regular: names resolve and are unambiguous, fields and aliases of a record have distinct names, enum symbols are distinct, a null of the writer is not read as a union nor a union with null as null (never so when both schemas are the same), no union directly in a union, fixed sizes are not negative, different records have different Go names, no record can be read as two, no definition is called like a built-in type (Int, String, ...), no record contains itself through record fields alone, and the reader's root is a record or a union. C25-C28 say what happens otherwise.", "why_tests_cant": "histories of the target object", "anchors": ["v10/vm/eval.go", "v10/vm/types"]}
{"id": "C61", "title": "a failing destination gets the beginning of a correct file", "statement": "If the destination of a container writer fails during a call, then what it has taken by then is a beginning of the container file with all records handed over so far.", "quantifier": "every history of writer calls, every point of failure of the destination", "why_tests_cant": "the destination can fail at any byte of any history", "anchors": ["v10/container/writer.go:WriteRecord,Flush,writeHeader"]}
{"id": "C62", "title": "corrupted snappy blocks are detected", "statement": "Reading a snappy block whose checksum is not that of its data gives an error.", "quantifier": "every block, every wrong checksum", "why_tests_cant": "all checksums", "anchors": ["v10/container/reader.go:openBlock", "v10/container/snappy_writer.go"]}
{"id": "C63", "title": "what the container writer accepts can be read", "statement": "If NewWriter accepts a codec and all calls of WriteRecord and Flush return nil, then the reader can read the file.", "quantifier": "every codec, every history of calls", "why_tests_cant": "every codec and every size", "anchors": ["v10/container/writer.go:NewWriter", "v10/container/reader.go:openBlock", "v10/vm/readers.go"]}
{"id": "C64", "title": "definitions and aliases are in the namespaces the specification gives", "statement": "An alias without a dot is in the namespace of the definition it belongs to; an empty namespace attribute is the null namespace.", "quantifier": "every schema document", "why_tests_cant": "all documents, all nestings of namespaces", "anchors": ["v10/parser/namespace.go:decodeEnumDefinition,decodeFixedDefinition,decodeRecordDefinition,getMapString"]}
{"id": "C65", "title": "the order of the schema files does not matter", "statement": "gogen-avro accepts a list of schema files in every order or in none, and in every order a name denotes the same definition.", "quantifier": "every list of schema files, every permutation of it", "why_tests_cant": "all lists and all orders", "anchors": ["v10/cmd/gogen-avro/main.go", "v10/parser/namespace.go:TypeForSchema", "v10/resolver/resolver.go:ResolveDefinition"]}
{"id": "C66", "title": "the canonical form is Avro's Parsing Canonical Form", "statement": "For every legal schema document the canonical form is, character by character, the Parsing Canonical Form the Avro specification describes, so the fingerprint of a generated type is the one every other Avro implementation computes.", "quantifier": "every legal schema document", "why_tests_cant": "all schema documents", "anchors": ["v10/schema/canonical/canonical.go", "v10/generator/flat/templates/lookup.go:definitionFingerprint"]}
{"id": "C67", "title": "the schema a generated type carries is accepted and describes the type", "statement": "Schema() of every generated record (or union) is text the library's own parser accepts, and the schema parsed from it has the names, fields, aliases, defaults, symbols and sizes of the definitions the type was generated from. Otherwise the type's Deserialize functions always fail, and container files get a header nobody can read.", "quantifier": "every list of schema files the command accepts, every record and union in them", "why_tests_cant": "all schemas, namespaces and orders of definition", "anchors": ["v10/schema/record.go:Definition,Schema", "v10/schema/union.go:Definition,Schema", "v10/schema/{enum,fixed,array,map,field,reference}.go:Definition", "v10/compiler/compile.go:ParseSchema"]}
{"id": "C68", "title": "data belong to the schema the type carries", "statement": "If the schema a type carries describes the type, then the encodings of the type's data under both are the same, schema resolution gives the same values whether the original or the carried schema is the writer's or the reader's, and canonical form and fingerprint agree.", "quantifier": "every schema, every datum, every encoding of it", "why_tests_cant": "all schemas and data", "anchors": ["v10/generator/flat/templates/record.go:Deserialize", "v10/generator/flat/templates/record_container.go", "v10/schema/record.go:Schema"]}
{"id": "C69", "title": "fields get the defaults the schema declares", "statement": "NewX() returns a record in which every field with a default holds the value the default stands for by Avro's rules, SetDefault puts the same value there, and a field that the writer's schema does not have is decoded as that value.", "quantifier": "every schema, every record in it, every field with a default, every default of the field's type, nested to any depth; every reader and writer schema and every encoded datum", "why_tests_cant": "all types and JSON values, composed to any depth; numbers pass through decimal text in the generated source", "anchors": ["v10/schema/{null,bool,int,long,float,double,bytes,string,array,map,union,reference,enum,fixed,record}.go:DefaultValue", "v10/schema/constructable.go", "v10/generator/flat/templates/record.go:ConstructorMethod,SetDefault", "v10/generator/flat/templates/lookup.go:hasNullDefault"]}
{"id": "C70", "title": "MarshalJSON writes Avro's JSON encoding", "statement": "json.Marshal of a value of a generated type writes the JSON encoding that the Avro specification gives for it: null for null in a union, otherwise an object with the member's name as key; bytes and fixeds as strings of code points 0-255; enums as their symbol; numbers that read back as the same number.", "quantifier": "every schema, every value of every generated type", "why_tests_cant": "all schemas and values, nested to any depth; all floats, for which the shortest decimal must be found", "anchors": ["v10/generator/flat/templates/record.go:MarshalJSON,UnmarshalJSON", "v10/generator/flat/templates/union.go:MarshalJSON,UnmarshalJSON", "v10/generator/flat/templates/enum.go:NewXFromString,MarshalJSON,UnmarshalJSON", "v10/generator/flat/templates/fixed.go:MarshalJSON,UnmarshalJSON", "v10/generator/flat/templates/bytes.go:MarshalJSON,UnmarshalJSON", "v10/schema/*.go:UnionKey", "v10/util/bytes.go"]}
{"id": "C71", "title": "UnmarshalJSON reads Avro's JSON encoding", "statement": "json.Unmarshal of any Avro JSON encoding of a value into a variable of the generated type, whose maps are empty, succeeds and leaves this value there; object entries may be in any order and numbers may be written in any way.", "quantifier": "every schema, every value, every JSON encoding of it, every variable without map entries", "why_tests_cant": "all JSON texts and all previous contents of the variable", "anchors": ["v10/generator/flat/templates/record.go:MarshalJSON,UnmarshalJSON", "v10/generator/flat/templates/union.go:MarshalJSON,UnmarshalJSON", "v10/generator/flat/templates/enum.go:NewXFromString,MarshalJSON,UnmarshalJSON", "v10/generator/flat/templates/fixed.go:MarshalJSON,UnmarshalJSON", "v10/generator/flat/templates/bytes.go:MarshalJSON,UnmarshalJSON", "v10/schema/*.go:UnionKey", "v10/util/bytes.go"]}
{"id": "C72", "title": "UnmarshalJSON applies aliases and defaults", "statement": "json.Unmarshal into a generated record takes an entry under an alias where there is none under the field's name, gives a field without entry its default, ignores entries that belong to no field, and takes the default symbol of an enum for an unknown one, at every depth.", "quantifier": "every schema, every JSON value readable by these rules", "why_tests_cant": "all schemas, all sets of missing fields, all defaults", "anchors": ["v10/generator/flat/templates/record.go:MarshalJSON,UnmarshalJSON", "v10/generator/flat/templates/union.go:MarshalJSON,UnmarshalJSON", "v10/generator/flat/templates/enum.go:NewXFromString,MarshalJSON,UnmarshalJSON", "v10/generator/flat/templates/fixed.go:MarshalJSON,UnmarshalJSON", "v10/generator/flat/templates/bytes.go:MarshalJSON,UnmarshalJSON", "v10/schema/*.go:UnionKey", "v10/util/bytes.go"]}
{"id": "C73", "title": "JSON round trip", "statement": "What json.Marshal writes for a value, json.Unmarshal reads as the same value; different values are written differently.", "quantifier": "every schema, every value, every variable without map entries", "why_tests_cant": "all values nested to any depth, all floats", "anchors": ["v10/generator/flat/templates/record.go:MarshalJSON,UnmarshalJSON", "v10/generator/flat/templates/union.go:MarshalJSON,UnmarshalJSON", "v10/generator/flat/templates/enum.go:NewXFromString,MarshalJSON,UnmarshalJSON", "v10/generator/flat/templates/fixed.go:MarshalJSON,UnmarshalJSON", "v10/generator/flat/templates/bytes.go:MarshalJSON,UnmarshalJSON", "v10/schema/*.go:UnionKey", "v10/util/bytes.go"]}
{"id": "C74", "title": "JSON that encodes no value is refused", "statement": "json.Unmarshal into a generated type returns an error for a JSON value that is no encoding of any value of the type: wrong kind, number out of range, unknown symbol, missing field without default, unknown or several keys in a union, at any depth and whatever the variable holds.", "quantifier": "every schema, every JSON value, every variable", "why_tests_cant": "all wrong inputs", "anchors": ["v10/generator/flat/templates/record.go:MarshalJSON,UnmarshalJSON", "v10/generator/flat/templates/union.go:MarshalJSON,UnmarshalJSON", "v10/generator/flat/templates/enum.go:NewXFromString,MarshalJSON,UnmarshalJSON", "v10/generator/flat/templates/fixed.go:MarshalJSON,UnmarshalJSON", "v10/generator/flat/templates/bytes.go:MarshalJSON,UnmarshalJSON", "v10/schema/*.go:UnionKey", "v10/util/bytes.go"]}
{"id": "C75", "title": "AllowLaxNames only lets the name of the root differ", "statement": "Schemas compiled with AllowLaxNames are read as without it if they compile without it; and a record, enum or fixed at the root is read whatever its name, as if its name were an alias of the reader's definition. Other reasons for refusing schemas stay.", "quantifier": "every pair of schemas, every input, every reader", "why_tests_cant": "the one test of the option compiles one pair of schemas and runs nothing", "anchors": ["v10/compiler/options.go:AllowLaxNames", "v10/compiler/method.go:compileRef", "v10/compiler/compile.go:Compile"]}
{"id": "C76", "title": "null as a type of its own", "statement": "A field, array item or map value of type null takes no bytes and is read as null, wherever it occurs, also when a reader whose schema differs elsewhere reads it. A reader may make such a field optional, and then sees null.", "quantifier": "Every schema in which null occurs outside unions, every value, every reader schema.", "why_tests_cant": "the place of null in the schema and the reader schemas are unbounded", "anchors": ["v10/compiler/method.go:compileType,compileUnion", "v10/schema/null.go", "v10/generator/flat/templates/union.go"]}
{"id": "C77", "title": "From schema documents to data and back", "statement": "A program generated from schema documents reads back with DeserializeX every value of a record that its Serialize wrote, although DeserializeX compiles the schema text that the type carries and not the documents; and a program generated from other documents, given that text, reads what schema resolution between the two sets of documents gives, or returns an error if they cannot be matched.", "quantifier": "every list of schema documents the command accepts (definitions regular, and movable to where they are mentioned), every record in them, every value, every trailing input, every reader, every pair of document lists", "why_tests_cant": "documents, values and pairs of versions are unbounded", "anchors": ["v10/generator/flat/templates/record.go:DeserializeX,DeserializeXFromSchema,Serialize,Schema", "v10/compiler/compile.go:CompileSchemaBytes", "v10/parser/namespace.go:ParseSchema", "v10/schema/qualified_name.go", "v10/schema/record.go:Definition"]}
{"id": "C78", "title": "decoding returns, whatever the bytes", "statement": "A call of vm.Eval with a program that Compile made, and so every DeserializeX, returns with a value or an error for every input: panics of the target's methods and of the runtime inside it become errors, the handler that converts them does not panic itself, and the process is not brought down.", "quantifier": "every pair of schemas for which Compile succeeds (with and without AllowLaxNames), every map order, every reader, every target, every input, every stack size", "why_tests_cant": "all programs, all targets and all byte strings; a failing handler shows only for the program counters it is wrong at", "anchors": ["v10/vm/eval.go:Eval,evalInner", "v10/compiler/program.go:CompileToVM", "v10/compiler/instruction.go"]}
{"id": "C79", "title": "generated defaults are the same in every run of the generator", "statement": "For the same schema files, the values that constructors and SetDefault of the generated types give to fields, and whether they return at all, are the same in every run of the generator: they do not depend on the order in which the objects in defaults are walked.", "quantifier": "every list of definitions, every default, every pair of orders of all objects in the defaults (of the constructors and, separately, of SetDefault), every value a record holds before SetDefault", "why_tests_cant": "Go picks the order at random; a test sees one order in one run, and the number of orders grows with the factorial of the size of the objects", "anchors": ["v10/schema/map.go:DefaultValue", "v10/schema/record.go:DefaultValue,FieldByName", "v10/generator/flat/templates/record.go"]}
{"id": "C80", "title": "decoded generic values belong to the caller", "statement": "What Deserialize of package generic returns shows the decoded value whatever the program has done before with values it got from earlier calls, is made of objects of its own, and stays as it is whatever the program does with its other values and with further calls.", "quantifier": "every parsed reader's schema, every history of calls of Deserialize with codecs for any writers' schemas and of changes the program makes to objects it can get at, every input", "why_tests_cant": "sharing is not visible in the values a test compares; it shows only after some change through some reference, in any of unboundedly many histories", "anchors": ["v10/generic/record.go:SetDefault,Datum", "v10/generic/array.go:Datum", "v10/generic/map.go:Datum", "v10/generic/serde.go:Deserialize", "v10/schema/field.go:Default", "v10/vm/readers.go:readBytes,readFixed"]}
{"id": "C81", "title": "the generic codec and generated code accept the same input", "statement": "For the same pair of schemas and the same input, Deserialize of package generic returns an error exactly when generated code does; it fails in NewCodec exactly when generated code fails to compile the schemas; where both return a value they have read the same part of the input; and it always returns or panics.", "quantifier": "every pair of schemas, every byte sequence, also those that encode nothing. Schemas are regular as in C17. Inputs no longer than what Go can allocate at once.", "why_tests_cant": "The two targets implement the same interface with different code; a difference may show on any of unboundedly many malformed inputs.", "anchors": ["v10/generic/serde.go:NewCodec,Deserialize", "v10/generic/record.go", "v10/generic/union.go", "v10/generic/array.go", "v10/generic/map.go", "v10/generic/enum.go", "v10/generic/primitive.go", "v10/vm/eval.go:Eval"]}
{"id": "C82", "title": "damaged input is an error of the generic codec", "statement": "Deserialize of package generic returns an error, and never a value, for a proper prefix of an encoding (on a plain io.Reader) and for input with an index of a union or an enum that does not exist; and a value that it returns for some input it returns for that input followed by anything.", "quantifier": "every schema pair, every datum and every cut; every input with such an index; every continuation. Schemas are regular (quantifier of C17); here the root may have any type, but the writer's must be readable as the reader's. Inputs no longer than what Go can allocate at once.", "why_tests_cant": "A test cuts a few encodings at a few places.", "anchors": ["v10/generic/serde.go:Deserialize", "v10/generic/enum.go:SetInt", "v10/generic/union.go", "v10/vm/eval.go:Eval", "v10/vm/readers.go"]}
{"id": "C83", "title": "only encodings are accepted", "statement": "If DeserializeXFromSchema (or Deserialize of package generic) returns a value, then what it has read is the encoding of a datum of the writer's schema, as Avro's specification defines it, and the value is that datum read under the reader's schema.", "quantifier": "every pair of schemas, every byte sequence and every reader. Schemas are regular (quantifier of C17). For the generic codec: inputs no longer than what Go can allocate at once.", "why_tests_cant": "The inputs that are no encodings cannot be enumerated; a test shows that some of them are refused.", "anchors": ["v10/vm/readers.go:readBool,readInt,readLong,readBytes,readString", "v10/vm/eval.go:Eval", "v10/compiler/method.go", "v10/compiler/instruction.go", "v10/generic/serde.go:Deserialize"]}
{"id": "C84", "title": "what was decoded can be encoded again", "statement": "Whatever value DeserializeXFromSchema returns is a proper value of the generated type (enums among the constants, unions with the member set that UnionType names, strings within the limit); Serialize writes it without an error, what it writes is an encoding in the sense of Avro, and decoding that returns the same value.", "quantifier": "every pair of schemas, every input (also input that is no encoding), every reader, every writer and every order of map iteration. Schemas are regular (quantifier of C17).", "why_tests_cant": "The values that decoding may yield, in particular from unusual input and by schema resolution with defaults, cannot be enumerated.", "anchors": ["v10/vm/eval.go:Eval", "v10/compiler/method.go", "v10/generator/flat/templates/record.go:Serialize", "v10/generator/flat/templates/union.go", "v10/generator/flat/templates/enum.go", "v10/soe/v1.go"]}
{"id": "C85", "title": "ends of a run of the command", "statement": "A run of gogen-avro that stops before writing (bad arguments, documents missing, refused or not resolved, a template that fails) leaves the target directory as it was. When it exits with 0 all files of the package are there with their contents, all others are untouched, and the order in which the files are written does not matter. Whenever the process is killed or the file system fails, every file is as before or complete, but for one at most that is cut; running the command again gives what an undisturbed run would have given.", "quantifier": "every set of flags and arguments, every contents of the documents, every state of the directory, every order of map iteration, every moment of a crash and every failing operation.", "why_tests_cant": "Crash points, failing operations and orders of map iteration cannot be enumerated or forced by a test.", "anchors": ["v10/cmd/gogen-avro/main.go:main", "v10/cmd/gogen-avro/config.go", "v10/generator/package.go:WriteFiles"]}
{"id": "C86", "title": "no file outside the target directory", "statement": "Whatever names a schema uses, the command changes only files with names ending in .go whose path does not leave the target directory.", "quantifier": "every schema document, every namer and flag, every run however it ends.", "why_tests_cant": "Names that escape would have to be guessed; names are arbitrary strings.", "anchors": ["v10/generator/flat/generator.go:addFile", "v10/generator/package.go:AddFile,WriteFiles", "v10/generator/namer.go"]}
{"id": "C87", "title": "the header is a comment", "statement": "Every generated file begins with the line that marks generated code (DO NOT EDIT); with -sources it is followed by one comment naming all documents, and whatever the documents are called, that comment ends where it is meant to.", "quantifier": "every list of paths of documents.", "why_tests_cant": "File names are arbitrary strings.", "anchors": ["v10/cmd/gogen-avro/main.go:codegenComment", "v10/generator/package.go:WriteFiles"]}
{"id": "C88", "title": "documents are a set", "statement": "Which documents are given counts, not their order nor their repetition: they are accepted or refused alike, every name denotes the same definition and the same files are generated.", "quantifier": "every two lists of documents with the same members.", "why_tests_cant": "Orders and repetitions of arbitrary documents cannot be enumerated.", "anchors": ["v10/cmd/gogen-avro/main.go:main", "v10/parser/namespace.go", "v10/resolver", "v10/generator/package.go:AddFile"]}
{"id": "C89", "title": "what Go names are made of", "statement": "For names whose parts are letters and digits: with -namespaced-names full the Go name is all parts of the full name, each with a capital; with short it is the last part of the namespace and the name; without the flag it is the name alone.", "quantifier": "every name with any number of parts, of any length.", "why_tests_cant": "Names are unbounded.", "anchors": ["v10/generator/namer.go:DefaultNamer.ToPublicName,NamespaceNamer.ToPublicName"]}
{"id": "C90", "title": "declarations in generated code", "statement": "The text generated for a record is, as Go reads it, the declaration of one struct with one member per field, in order, with the field's Go name, the Go type of its schema type and its tag, and the text for a union likewise. Documentation in the schema, whatever it says and however long it is, only makes comments.", "quantifier": "every record and union, every number of fields and members, every documentation and tag.", "why_tests_cant": "Documentation and tags are arbitrary text that is put into source code; no sample shows that nothing breaks out of a comment.", "anchors": ["v10/generator/flat/templates/record.go", "v10/generator/flat/templates/union.go", "v10/schema/record.go:StructTags", "v10/schema/field.go", "v10/schema/array.go:GoType"]}
{"id": "C91", "title": "constants in generated code", "statement": "The constants in the text of generated code have, as Go reads them, the values they were made for: the fingerprint, Schema(), SchemaName() and the JSON keys are the bytes of the fingerprint, the schema and the names; the constants of enum symbols and of union members are their positions; String() and NewXValue pair every symbol with its constant; a fixed is an array of its size.", "quantifier": "every sequence of bytes of a fingerprint or schema, every list of symbols or members, every set of printable characters.", "why_tests_cant": "Quoting has to invert Go's reading of literals for all byte sequences, valid UTF-8 or not.", "anchors": ["v10/generator/flat/templates/record.go", "v10/generator/flat/templates/enum.go", "v10/generator/flat/templates/union.go", "v10/generator/flat/templates/fixed.go"]}
{"id": "C92", "title": "new records can be encoded", "statement": "The record that a constructor returns holds for each field without default the empty value of its type (false, 0, no bytes, no items, the first symbol, nil for a union that has null first, else a union of the first member), and is a value of its type: it is encoded without error, as some datum of the schema.", "quantifier": "every schema whose types Go accepts, whose constructors return and whose defaults are as in C69; every record, at any depth of nesting.", "why_tests_cant": "Schemas and nesting are unbounded.", "anchors": ["v10/generator/flat/templates/record.go", "v10/generator/flat/templates/union.go", "v10/generator/flat/templates/lookup.go:hasNullDefault", "v10/schema/constructable.go"]}
{"id": "C93", "title": "container files between programs", "statement": "A program generated from some schema documents writes records of a generated type to a container file with the type's own writer, flushes and closes. A program generated from the same or from other documents opens the file, finds in its header the schema that the writer's type carries, and reads with it all records in order, each as schema resolution between the two definitions gives it (the same values, if the documents are the same), and then gets io.EOF.", "quantifier": "all schema documents the command accepts and whose definitions can be moved to where they are mentioned; all records and values, block sizes, the codecs the reader knows, all orders of maps; every reader, however it splits the bytes.", "why_tests_cant": "Documents, values, numbers of records and splits of the input are unbounded; the property joins the parser, the generated code, the container and the compiler.", "anchors": ["v10/generator/flat/templates/record.go:New{{ .Name }}Writer", "v10/container/writer.go", "v10/container/reader.go", "v10/compiler/compiler.go", "v10/vm/eval.go", "v10/parser/namespace.go"]}
{"id": "C94", "title": "messages between programs", "statement": "WriteRecord on a value of a generated type writes a message; ReadHeader on it returns the fingerprint of the canonical form of the schema that the sender's type carries; what it leaves is read, with this schema, by a program generated from the same or other documents as schema resolution gives it, and the bytes after the message are left.", "quantifier": "all schema documents the command accepts and whose definitions can be moved to where they are mentioned; all values; all bytes after the message; every reader that fulfils its requests.", "why_tests_cant": "Documents and values are unbounded.", "anchors": ["v10/soe/soe.go", "v10/generator/flat/templates/record.go:AvroCRC64Fingerprint", "v10/schema/canonical", "v10/generator/flat/templates/lookup.go", "v10/compiler/compiler.go", "v10/vm/eval.go"]}
{"id": "C95", "title": "data of generated types read by the generic codec", "statement": "Bytes written by Serialize of a generated type are read by a generic codec made from the text that the type's Schema() gives, and the map it returns has for each field of the definition, in its name, the value that was written (symbols as strings, unions as the value inside).", "quantifier": "all schema documents the command accepts and whose definitions can be moved to where they are mentioned; all values that have no null inside arrays or maps; every reader.", "why_tests_cant": "Documents and values are unbounded.", "anchors": ["v10/generic/serde.go", "v10/generic/record.go", "v10/generator/flat/templates/record.go", "v10/parser/namespace.go"]}
{"id": "C96", "title": "generated serializers do what is said of Serialize", "statement": "The Go functions that are generated to write values (one for each array, map, union, record, enum and fixed type, and the method Serialize of records and unions), compiled and run as the Go specification says, write an Avro encoding of the value they are called with and return nil, or return the writer's error after writing a beginning of one; they return an error for unions that name no member; they never panic and always end.", "quantifier": "all schemas with names that Avro allows and no two declarations of one name, all Go values of the generated types, all writers, all points at which the writer fails, all orders in which loops over maps run", "why_tests_cant": "Each schema gives other code; values, orders of maps and failures of the writer are unbounded.", "anchors": ["v10/generator/flat/templates/array.go:arrayTemplate", "v10/generator/flat/templates/map.go:mapTemplate", "v10/generator/flat/templates/union.go:unionTemplate", "v10/generator/flat/templates/record.go:recordTemplate", "v10/generator/flat/templates/enum.go:enumTemplate", "v10/generator/flat/templates/fixed.go:fixedTemplate", "v10/schema/*.go:SerializerMethod"]}
{"id": "C97", "title": "decoded values are made of new objects", "statement": "What a generated Deserialize function returns is made of slices, maps and structs behind pointers that did not exist before the call, and no two parts of it use the same one; everything that existed before the call is left as it was. So, in any history of calls, a program may change one decoded value without changing another, and a later call never changes a value that was returned earlier.", "quantifier": "all pairs of schemas, all inputs and readers, all contents of memory, all capacities that append chooses, all histories of calls and of changes to values returned", "why_tests_cant": "Sharing shows only when one of two values is changed later; which values share depends on sizes, capacities, order of calls and nesting, and these are unbounded.", "anchors": ["v10/generator/flat/templates/array.go:AppendArray", "v10/generator/flat/templates/map.go:AppendMap", "v10/generator/flat/templates/map.go:Finalize", "v10/generator/flat/templates/union.go:Get", "v10/generator/flat/templates/record.go:Get", "v10/generator/flat/templates/record.go:Deserialize", "v10/vm/eval.go:Eval"]}
{"id": "C98", "title": "goroutines that decode at the same time do not disturb each other", "statement": "When several goroutines call generated Deserialize functions at the same time, each with its own reader, then in whatever order they run, each call that ends has the outcome it has when it is alone: the same value or a failure. The value it returns is made of objects that came into being during this call, no two calls have an object in common, what the rest of the program does to objects that the calls have not made changes nothing, and no call waits for another.", "quantifier": "all numbers of calls of any types, all pairs of schemas, inputs and readers, all interleavings of the method calls they make, all contents of memory, all capacities that append chooses, all actions of the rest of the program on objects that are not the calls' own", "why_tests_cant": "The interleavings are unbounded and the scheduler shows only a few of them; a disturbance would need two goroutines in particular places at the same time.", "anchors": ["v10/vm/eval.go:Eval", "v10/vm/eval.go:evalInner", "v10/vm/types/field.go:Field", "v10/generator/flat/templates/record.go:Deserialize", "v10/generator/flat/templates/array.go:AppendArray", "v10/generator/flat/templates/map.go:AppendMap", "v10/generator/flat/templates/union.go:Get"]}
{"id": "C99", "title": "the generated decoding methods, as Go code, fill in exactly the value decoded", "statement": "The methods of a generated package by which a value is filled in (Get, SetLong, SetInt, SetBytes, AppendArray, AppendMap, NullField, HintSize, Finalize), taken as Go programs that work on memory through pointers, have on every target, at every moment and in every memory the effect that the operation has in Avro's terms; so Deserialize of a generated package returns a value exactly if decoding gives one, and it is that value, in new objects. What the generated Serialize program writes, the generated Deserialize methods read back.", "quantifier": "all schemas with allowed names in packages without clashes, all record and union types of them, all writer schemas, inputs, readers and contents of memory, all capacities that append chooses", "why_tests_cant": "The code is different for every schema, and a wrong pointer or a write to a copy shows only for particular nestings, collection lengths and capacities.", "anchors": ["v10/generator/flat/templates/record.go:Get", "v10/generator/flat/templates/union.go:SetLong", "v10/generator/flat/templates/array.go:AppendArray", "v10/generator/flat/templates/map.go:AppendMap", "v10/generator/flat/templates/enum.go:SetInt", "v10/generator/flat/templates/fixed.go:SetBytes", "v10/vm/eval.go:evalInner", "v10/schema/array.go:ItemConstructable", "v10/schema/record.go:ConstructableForField"]}
{"id": "C100", "title": "goroutines may use generic codecs at the same time", "statement": "When several goroutines call Deserialize of codecs of package generic at the same time, of one codec or of several, each call with its own reader, then in whatever order they run, each call that ends has the outcome it has when it is alone. The value it returns is made of objects that came into being during this call, none used twice, and of objects in which its parsed schema keeps defaults that are maps or slices; it is made only of the former if all defaults are scalars. No two calls make the same object, no call changes an object that it has not made, and no call waits for another.", "quantifier": "all numbers of calls of any codecs, all pairs of schemas, inputs and readers, all interleavings of the method calls they make, all contents of memory, all actions of the rest of the program on objects that are neither the calls' own nor hold defaults", "why_tests_cant": "The interleavings are unbounded and the scheduler shows only a few of them; sharing of memory shows only when one of the values is changed later.", "anchors": ["v10/generic/serde.go:Deserialize", "v10/generic/datum.go:DatumForType", "v10/generic/record.go:Get", "v10/generic/record.go:SetDefault", "v10/generic/record.go:Datum", "v10/generic/array.go:AppendArray", "v10/generic/map.go:AppendMap", "v10/generic/union.go:Get", "v10/vm/eval.go:evalInner"]}
{"id": "C101", "title": "the code that sets defaults does what the schema's defaults say", "statement": "The texts generated for the constructor NewX and the method SetDefault of a record are Go code of assignments, and running it has the effect described in C69: the constructor returns exactly the record with those values, and SetDefault(i) turns a record into exactly the one in which field i has been set as described. A number in a default is printed as a Go constant that stands for the number it is taken for.", "quantifier": "all schemas with names Avro allows whose fields have different Go names, all defaults for which the generator writes code, all nestings of types, all records on which SetDefault is called, all field indices", "why_tests_cant": "The code is different for every schema and default: a wrong place, order or constant shows only for particular nestings of types and particular numbers and strings.", "anchors": ["v10/generator/flat/templates/record.go:NewX", "v10/generator/flat/templates/record.go:SetDefault", "v10/schema/record.go:DefaultForField", "v10/schema/record.go:DefaultValue", "v10/schema/record.go:ConstructableForField", "v10/schema/array.go:DefaultValue", "v10/schema/map.go:DefaultValue", "v10/schema/union.go:DefaultValue", "v10/schema/enum.go:DefaultValue", "v10/schema/fixed.go:DefaultValue", "v10/schema/bytes.go:DefaultValue"]}
{"id": "C102", "title": "the JSON methods that are generated write and read what the JSON encoding says", "statement": "The texts generated for MarshalJSON and UnmarshalJSON of a record, union, enum or fixed, and of the type Bytes, are Go functions whose variables are declared once, used, and in scope, and that end in a return. Run as Go code, with json.Marshal and json.Unmarshal of their parts as in C70 to C72, they return exactly the encoding that C70 describes, leave in the receiver exactly the value that C71 and C72 describe, and return an error exactly where those say that a text is refused.", "quantifier": "all schemas with names Avro allows whose fields, members and symbols have different Go names, all records, unions, enums and fixeds of them, all values, all JSON texts, all earlier contents of the receiver", "why_tests_cant": "The code is different for every schema: a wrong key, a missing alias or default, a wrong member or an unused variable shows only for particular schemas and texts.", "anchors": ["v10/generator/flat/templates/record.go:MarshalJSON", "v10/generator/flat/templates/record.go:UnmarshalJSON", "v10/generator/flat/templates/union.go:MarshalJSON", "v10/generator/flat/templates/union.go:UnmarshalJSON", "v10/generator/flat/templates/enum.go:MarshalJSON", "v10/generator/flat/templates/enum.go:UnmarshalJSON", "v10/generator/flat/templates/fixed.go:MarshalJSON", "v10/generator/flat/templates/fixed.go:UnmarshalJSON", "v10/generator/flat/templates/bytes.go:MarshalJSON", "v10/generator/flat/templates/bytes.go:UnmarshalJSON", "v10/schema/union.go:UnionKey"]}
{"id": "C103", "title": "the generated functions that decode and open files do what decoding and container files are said to do", "statement": "The texts generated for DeserializeX and DeserializeXFromSchema of a record or union, and for NewXWriter, NewXReader and Read of a record, are Go functions. Run as Go code, DeserializeX(r) returns a value and leaves the rest of r, or returns an error, exactly where decoding with the schema that X carries as writer's and reader's schema does, and the same value; DeserializeXFromSchema(r, schema) the same with the given schema as writer's schema, and if that schema cannot be parsed it returns the error without reading; NewXWriter makes a container writer whose header has the schema that X carries; NewXReader returns a reader exactly where the file can be opened and its schema can be compiled with X's as reader's schema; and each call of Read returns what decoding the next record of the file gives.", "quantifier": "all schemas with names Avro allows, all records and unions (with and without null), all byte streams and behaviours of the io.Reader, all strings given as schema, all container files, all histories of calls of Read", "why_tests_cant": "The functions are generated anew for every schema; arguments in the wrong order, an error that is not looked at, or a value handed over without its address show only for particular schemas and inputs.", "anchors": ["v10/generator/flat/templates/record.go:DeserializeX", "v10/generator/flat/templates/record.go:DeserializeXFromSchema", "v10/generator/flat/templates/union.go:DeserializeX", "v10/generator/flat/templates/union.go:DeserializeXFromSchema", "v10/generator/flat/templates/record_container.go:NewXWriter", "v10/generator/flat/templates/record_container.go:NewXReader", "v10/generator/flat/templates/record_container.go:Read", "v10/compiler/compile.go:CompileSchemaBytes"]}
{"id": "C104", "title": "a generated package declares each name once", "statement": "The text of each file that is generated is a sequence of Go tokens whose top level declarations declare exactly: for a record its type, its fingerprint, a constructor, two functions that decode and one that encodes; for a union its type, the type and the constants of its members, a constructor and the same functions; for an enum its type, its constants, a function that encodes, one that makes a value of a string, and a wrapper; for a fixed its type, a function that encodes and a wrapper; for arrays and maps the function and the wrapper; for a container file the reader's type and two constructors. No name is declared twice in the files of a package, which Go would refuse, unless the Go name of something in the schema looks as if it were made from another (NewX, XReader, XFromSchema and so on) or a constant of an enum is the name of a type or of another constant.", "quantifier": "all schemas with names Avro allows, all documentation and defaults, with and without container files", "why_tests_cant": "The names come from the schema; whether two of the names that are made from them are the same shows only for particular sets of names.", "anchors": ["v10/generator/flat/generator.go:Add", "v10/generator/flat/templates/record.go", "v10/generator/flat/templates/union.go", "v10/generator/flat/templates/enum.go", "v10/generator/flat/templates/fixed.go", "v10/generator/flat/templates/array.go", "v10/generator/flat/templates/map.go", "v10/generator/flat/templates/bytes.go", "v10/generator/flat/templates/record_container.go"]}
{"id": "C105", "title": "Generated files use every package that they import", "statement": "Go refuses a file that imports a package without use, or two packages under one name. Whatever the schema is (a record without fields, a union of null alone, an enum with one symbol), every file that the generator writes imports a list of packages that depends only on its kind, no two of which have the same name, and its code refers to each of them.", "quantifier": "all schemas with names Avro allows, all files that are generated for them", "why_tests_cant": "Imports are fixed per kind of file while the code depends on the schema, so a package could be unused for particular schemas only.", "anchors": ["v10/generator/flat/templates/record.go", "v10/generator/flat/templates/union.go", "v10/generator/flat/templates/enum.go", "v10/generator/flat/templates/fixed.go", "v10/generator/flat/templates/array.go", "v10/generator/flat/templates/map.go", "v10/generator/flat/templates/bytes.go", "v10/generator/flat/templates/record_container.go", "v10/generator/flat/generator.go:Add"]}
{"id": "C106", "title": "No generated struct has two members or methods of one name", "statement": "Go refuses a struct type with two members of one name, two methods of one name, or a member with the name of a method. In the text of the file that is generated for a record, the members and methods of its type are one member per field and 21 methods; for a union, one member per type of the union, UnionType, and 18 methods. No name occurs twice among them, unless two fields or types have the same Go name, a field has the Go name HintSize or SetUnionElem, or a definition in a union has the Go name of a method or UnionType.", "quantifier": "all records and unions with names Avro allows, all documentation, defaults and tags that leave the text whole", "why_tests_cant": "The names come from the schema; whether one of them is the name of a method shows only for particular names.", "anchors": ["v10/generator/flat/templates/record.go", "v10/generator/flat/templates/union.go", "v10/schema/field.go:GoName", "v10/schema/union.go:Name"]}
