# Formal model of gogen-avro v10 in Lean 4

Source: `/repo/v10` (paths below are relative to it). Lean project: `/verif/lean`.

## Layers of the model

| Layer | Go code | Lean modules (under `lean/Verif/`) |
|---|---|---|
| wire primitives | `vm/readers.go`, `vm/writers.go`, `io.ReadFull` | `Wire/*` |
| virtual machine | `vm/eval.go`, `vm/op.go`, `vm/instructions.go` | `VM/*` |
| schema types, readability, Go names | `schema/*.go`, `generator/namer.go`, `generator/util.go` | `Schema/*` |
| compiler | `compiler/*.go` | `Compiler/*` |
| generated code (serializers, decode targets) | `generator/flat/templates/*`, `vm/types/*` | `Gen/*` |
| generic decoding | `generic/*` | `Generic/*` |
| container files | `container/*` | `Container/*` |
| single-object encoding | `soe/soe.go` | `Soe/*` |
| canonical form, fingerprint | `schema/canonical/*` | `Canonical/*` |
| schema parser, resolver | `parser/*`, `resolver/*`, `schema/qualified_name.go` | `Parser/*` |
| byte strings, names, output files | `util/bytes.go`, `generator/*` | `Util/*`, `Gen/Names`, `Gen/Files`, `Gen/Command` |
| text of declarations and constants | `generator/flat/templates/*`, `strconv.Quote` | `Gen/Text`, `Go/Quote` |
| methods of targets as Go programs | `generator/flat/templates/*`, `schema/*.go: WrapperType, ItemConstructable, …` | `Gen/Methods*`, `Props/Methods` |
| serializers as Go programs | `generator/flat/templates/*`, `schema/*.go: SerializerMethod` | `Gen/Code`, `Gen/CodeRun`, `Gen/CodeSer`, `Gen/CodeText` |

Independent specifications are in `Verif/Spec/*`, the property theorems in
`Verif/Props/*` (one file per area), everything else is model or helper lemma.

### Modelling decisions

* Go integers are `BitVec 32` / `BitVec 64` (Go `int` is 64 bits). Floats are
  their IEEE bit patterns. Go strings and byte slices are `List (BitVec 8)`.
* A Go panic inside `vm.Eval` is an error value `Err.panic` (that is what
  `recover` turns it into, `vm/eval.go:24-28`); panics outside `Eval` are kept apart.
* `evalInner` is a fuel-indexed function. "Evaluates to `out`" means: for some
  fuel the result is `out`; more fuel never changes a result (proved).
* The reader is abstract (`ReaderOps`: `ReadByte`/`ReadFull`), the decode target is
  abstract (`FieldOps`, the `types.Field` interface). Instances: flat byte
  readers with and without `ReadByte`, chunked readers, container readers;
  generated Go structs, generic datums.
* A target returned by `Get`, `AppendArray`, `AppendMap` is a pointer into its
  parent in Go. In the model it is a value that is written back when the inner
  evaluation ends. Nothing reads the parent in between, and after an error the
  target is not looked at. That this is right is C97, where targets are pointers
  into memory.
* Go map iteration order is an arbitrary permutation, supplied as a parameter of
  the model and universally quantified in the theorems.
* Schemas are finite trees with references by qualified name into a table of definitions.

## Plan per property

(See the end of the file for what was in fact proved.)

* C01-C07, C10: readers and writers as functions on bit vectors; equality with a
  small spec on natural numbers (`zigzag`, base-128 digits); induction on digits.
* C08: simulation between reader implementations, by induction on the evaluation.
* C09: serializers as traces of `Write` calls; a writer that fails after any
  number of bytes has accepted a prefix.
* C11-C18, C20-C22, C29-C36: `compile w r` then `Eval` is shown equal to a
  structural interpretation of the schema pair (offsets, loops, switches,
  methods); the interpretation is shown to invert the relation "these bytes
  encode this datum" and to apply Avro resolution (specification in `Spec/`).
* C19, C24: termination measures: unread input and acyclic by-value nesting; number of
  methods not yet created and size of the types.
* C23: the theorems of C22 hold for every order; two orders agree by determinism.
* C25: invariant of the compiler on counters plus the layout theorem.
* C26-C28, C34, C38, C43, C44, C45, C47, C49, C59: reading the code shows these are
  violated; a concrete witness of the violation is proved, and the strongest
  restriction that does hold is proved as `_partial`.
* C37: interpretation over generic targets.
* C39-C47: writer and reader as state machines over histories; invariants by induction.
* C48-C49: straight-line code over an abstract reader.
* C50-C51: linearity of the CRC step.
* C52-C53: canonical form as a function on schema trees.
* C54-C57: parser state machine, name functions.
* C66: the Parsing Canonical Form as a relation between documents and texts; induction over the document.
* C67: `Definition` and `Schema` as functions on what the parser built; the document they give is shown to be
  described by the rules of `Spec/SchemaDoc`, by induction on the bound of the recursion.
* C68: schemas that mean the same are related by a bisimulation; encodings and resolution respect it.
* C69: the statements `DefaultValue` prints are run on what the variable holds, numbers by way of the decimal printed
  (`Go/Literal`); a relation `DefaultMeans` (Spec/Default) says what a default stands for; induction over it.
* C70-C74: `MarshalJSON` and `UnmarshalJSON` of the templates over JSON trees, with what encoding/json does for the Go types
  between them; the JSON encoding as a relation `JsonOf` (Spec/JsonEnc); induction over values and over the relation.
* C75: `compile` has the option as a flag; programs compiled with it are compared with those compiled without it for a
  reader whose root has one more alias, by induction on the bound of the recursion.
* C76: null outside unions: `NullsAgree` (Compiler/Flags) replaces the condition that null occurs in unions only; the
  compiler's walk never matches null with a union. `Compiler/Nulls` shows the old condition implies it.
* C58-C59: name functions on character lists.
* C60: consequence of C22 and C21.
* C21, C60 for variables used before: the interpretation is run on a record or union that holds values
  (`Gen/Reuse`); its fields can only be replaced. What `SetDefault` leaves in a field that held something is a
  parameter tied to the model of C69 by `DefaultsOver`.
* C77: composition. `Regular` (Gen/Document) is a condition on definitions; the schema text a type carries, parsed
  again, consists of copies of the definitions (`Copied`, Parser/Reread) and therefore is regular and closed, so that
  the round trip (C11) and resolution (C22) apply to it; values, bytes, resolution and refusal carry over along the
  copy by bisimulation (Gen/Twin, Gen/TwinPair).
* C78: `evalAt` (VM/Recover) is the evaluator once more, with the value of the shared program counter at each failure and
  a limit on the number of nested activations (the Go stack); `evalGo` adds the deferred handler of `Eval`. A refinement
  to `evalInner` by induction on the steps; that compiled programs have no negative address and do not end with an
  instruction that steps beyond the end is read off the emitted code. That the stack suffices for schemas of bounded
  nesting (`Nests`) is shown piece by piece of the emitted code (`Room`, Compiler/Stack): every piece gets to its end in
  the activation it began in, blocks by induction on the steps, methods by induction on the nesting. For records that
  contain themselves the level is taken together with what is left of the input (`Levels`, `Meter`): arrays, maps and
  unions take a byte before they nest, and records that nest directly have ranks (`Grounded`). Memory is not modelled
  beyond the limit `lim` of `make`.
* C79: the generator's walks through the objects of a default have the order of the list in the model (Gen/Default); the
  theorem relates two orders, chosen apart for constructors and `SetDefault`, by `Shuffled` (Spec/Shuffle). Induction on
  the fuel: congruence inside the members, then permutation of the members (Gen/DefaultOrder). Only values are compared;
  the text of the generated code does depend on the order.
* C80: memory (Spec/Heap): objects by address, variables that are references or values. `Build` (Generic/Heap) is where
  `Deserialize` puts what it has decoded; the program decodes, makes objects and changes those it can get at (`Act`), in any
  history. Separation by closed sets of addresses: what the program has, and what a result is made of (Generic/Apart). That
  the raw JSON values in results are defaults of the schema is an invariant of the virtual machine (VM/Keep). Two
  goroutines that do this at once are not modelled.
* C81, C82: the interpretation of the schemas (Compiler/Interp) for generic targets is run alongside the one for generated
  targets: if the generic one succeeds so does the other, since generic targets refuse less only where the compiler has
  refused before (Generic/Fails, `Along`, induction on the fuel). What generated code does on any input is known
  (Gen/Outcome). Termination does not depend on the target (Compiler/Ends): reading shrinks the input, records that nest
  directly have ranks.
* C83: Spec/Loose says what the readers take for an encoding; both directions are proved by induction (Gen/Accepts:
  `parse_taken` on the fuel, `parse_loose` on the datum) and joined with the outcome of decoding. Avro's encodings are loose
  encodings. The converse fails: four counterexamples; what holds is that the datum has a proper encoding.
* C84: resolving a datum that was read (in the loose sense of C83) gives a value of the reader's type (Gen/Typed, induction on
  the datum); defaults are values of their types because of C69 (Gen/DefaultTyped). The rest is the round trip, C11.
* C85-C88: the command as a whole (Gen/Command): `prepare` is what it does before it writes, a function to an exit code or
  the files; `Saving` is a relation with one step per file (gofmt fails, the file system refuses, the file is cut, the
  process is killed), over any permutation of the files. Reading, glob, gofmt, JSON and the text of templates are
  parameters (`Outside`). Induction on `Saving`. C86: Go names have no dots, by the definitions of the namers. C88: what
  parsing returns is determined by the set of definitions (Gen/DocSet, from the theorems of C53).
* C89: induction on the parts of the name.
* C90, C91: the text that the templates give for declarations and constants (Gen/Text), with `strconv.Quote` (Go/Quote) as
  `%q` uses it. The specification is a scanner for Go (Spec/GoText: comments, literals, words, automatic semicolons, after
  the Go specification) and what the tokens of a declaration are (Spec/GoDecl). Induction on the text, with a lemma per
  kind of token; that a quoted string is read back is by cases on the UTF-8 sequences. `strconv.IsPrint` is a parameter.
* C92: for fields without default, cases on `construct`; that zero values exist is by induction on a rank of the records
  (Go's condition that no type contains itself), then on the type. A union struct whose members were never assigned is a
  value of its own in the model; `Spec.Shown` writes it with the zero value of its member, which in Go is the same value.
* C93-C95: composition. C77 gives, for the schema a type carries, well-formedness and the values it reads; the container
  theorems (C34) are about any list of encodings each of which has a reading, so `file_read` chooses the readings and hands
  them over. For messages, the fingerprint is that of the carried schema (C68). For the generic codec, `goView` is shown to
  be the same under schemas that mean the same (induction on the value).
* C96: the serializers of the templates as programs (Gen/Code), in the part of Go that they use (Spec/MiniGo: syntax, tokens
  and an interpreter that counts steps; a panic or a type error is no result). The text the templates give has the tokens of
  the program (`serializer_text`), and the program does what `ser`, the model of C09 and C11, says (`serializer_runs`), by
  induction on the value with one rule of inference for each construct (Go/Run). Which Go value stands for which Avro value
  is in Spec/GoValues. That Go does what Spec/MiniGo says is trusted; the parser of Go is replaced by comparing tokens.
* C97: the targets again, over an explicit memory (Gen/Memory): places in variables, slices with a capacity, maps, pointers,
  the fields of `MapXWrapper`. A run in memory follows a run with targets that are written back (`evalInner_sim`, for any
  program, by induction on steps; the invariant `Own` says that the parts of the value, and of every half-built value on the
  way, have separate objects, all made during the call). `VarShows` (Spec/Memory) reads a value off memory and lists the
  objects that were followed. Not modelled: what constructors put into fields before they are decoded (decoding
  constructs each field anew; a default value for a map is put into the map of the constructor, which is counted as
  made at that point), the bytes of a `[]byte` as an object (the virtual machine makes them anew and nothing writes them).
* C98: a call as a sequence of steps, one for each method of `types.Field` that `vm.Eval` calls (Gen/Threads; `alone_iff`: the
  steps with nobody in between are the call of C97). A history (`Running`) is any interleaving of steps of any number of
  calls, and of changes by the rest of the program to objects that no call has made. The simulation of C97 is proved again
  with arbitrary changes to memory between the steps that leave the call's own objects alone (`Todo.Safe`, `evalA_safe`);
  the steps of another call are such changes, since a step changes only objects that its own call has made, and addresses are
  handed out once (`running_ok`, induction on the history). A method call is one step: what happens to the goroutines
  within a method, and Go's memory model, are not modelled; the theorems say that no object is touched by two calls, so
  that there is nothing to order. Compiling the schemas happens before the first step and touches no shared memory (the
  package variables that it reads, `LoggingEnabled`, are taken not to change). Each call has its own reader.
* C99: the methods of generated targets as Go programs (Gen/Methods) in the part of Go that they use (Spec/GoTarget: places,
  assignments through pointers, `append`, `make`, `copy`, struct literals, `panic`, and an interpreter over the memory of
  Spec/Memory). A package (`Pack`) is its methods, constructors, structs and `append`; `packOf` is the package generated for a list
  of types, if no name has two meanings in it (`OneMeaning`). `Pack.ops` is `types.Field` with dispatch on the dynamic type
  of the target. Each method on each target is shown to do what Gen/Memory says (`ops_match`, cases on the target and one
  lemma per method), then a simulation over the steps of the virtual machine (`Matches`, VM/Match) gives that `Eval` does
  the same with either. The text the templates give for each method has the tokens of the program (`methods_text`: Gen/MethodsText
  is the text, Gen/MethodsToks a small calculus for texts that are put together from constant pieces and names). The methods of v10/vm/types and of the wrapper in
  templates/bytes.go are programs too (`libMethods`, MethodsLib); Gen/LibText holds the text of these files, and Props/LibText shows that it
  consists of the declarations and programs (`tools/check_texts.py` compares Gen/LibText with /repo). For `types.Record`, whose
  methods call the one of the same name of another target, the text is compared but the meaning is a definition (`inner`). Not programs here: constructors and
  `SetDefault` of records, which are taken as in Gen/Memory (C101 has them as statements, over values instead of memory).
* C100: a datum of package generic is an object in memory that refers to the data of its parts by address (Generic/Places),
  unlike in C37, where a part is stored as the result of its `Datum()`; a parsed schema keeps its defaults in objects, which
  `SetDefault` assigns without copying. `Deserialize` of a codec is a sequence of steps like that of C98 (VM/Steps is common to both): the new datum, one step
  for each method call of `vm.Eval`, `Datum()`. `DRep` (PlacesRep) relates a datum in memory to a target of C37, with the objects that
  it is made of; each method keeps it, with anything happening to memory between the steps but to the call's own objects and to those of
  defaults (`Todo.Sure`, `evalA_sure`); `Datum()` of a represented target gives its value in memory (`datumAt_ok`, induction on the
  number of objects). Histories as in C98, with schemas being parsed at any time (`grunning_ok`). Simplified: the arrays of
  the slices in a datum are part of the datum; the array of a `[]byte` comes into being when it is stored; two fields of a schema that agree
  in everything have one variable for the default.
* C101: the body of `NewX()` and the cases of `SetDefault` as Go statements (Gen/DefaultCode): assignments to fields, items and entries, `copy`,
  `make`, calls of constructors. Spec/GoDefault has the tokens and the meaning of a statement on a value of a type; what the compiler
  refuses is the outcome `build`, what panics is `panic`. Spec/GoNumber reads numeric constants, Go/Decimal prints `%v` of a float64.
  `default_iff` and `makes_iff` (Gen/DefaultCodeMeans, Gen/DefaultCodeBack) show in both directions, by induction on the
  depth, that the statements do what `applyDefault` and `construct` (Gen/Default) do; the variable has to be `Whole` (Spec/Whole: records
  have all of their fields, maps are sorted), which constructors and decoding give. Gen/DefaultText is what `DefaultValue` and
  the templates print, and Gen/DefaultTextProof shows that its tokens are those of the statements, lvalue by lvalue. That the names of enum constants are words
  follows from the code being accepted (`run_readable`). Simplified: -0 is printed as 0 (the same constant in Go).
* C102: `MarshalJSON` and `UnmarshalJSON` of generated types as Go programs and as text (Gen/JsonCode, after the templates). Spec/GoJson has the
  statements (as the templates combine them: `output["k"], err = json.Marshal(r.f)` is one), their tokens, the rules about variables (declared once,
  used, in scope, a return at the end), and their meaning; JSON texts are the trees of C70. `json.Marshal` and `json.Unmarshal` of a part of the receiver are
  parameters, and the theorems take those of C70 to C72 for them. Gen/JsonCodeMarshal: the program gives what `marshal` gives. Gen/JsonCodeUnmarshal: the same
  for `unmarshal`, in both directions for records, where the defaults are statements that may call constructors (C101), so that both sides have a bound
  on their depth (Gen/JsonMono: a larger bound changes nothing but the error of a bound that is too small). Gen/JsonCodeText: tokens and variables. What a method leaves in its
  receiver when it returns an error is not modelled.
* C103: `DeserializeX`, `DeserializeXFromSchema`, `NewXWriter`, `NewXReader`, `Read` as Go programs and as text (Gen/Entry, Gen/FileText, after the templates).
  Spec/GoEntry has the statements, their tokens and their meaning over a library: constructors, `Schema`, `CompileSchemaBytes`, `vm.Eval`, `container.NewReader`,
  `container.NewWriter`, each a relation. Gen/EntryLib is the library out of the model. Gen/EntryProof runs the programs, Props/Entry has the theorems: a call
  returns what `Deserializes` (Gen/Decode) says, and the other way round. The round trips of C77 and C93 are then stated with calls of the generated functions.
* C104: the names that the files of a package declare. Spec/GoFile reads the top level declarations out of the tokens of a file: cut behind each semicolon outside of brackets,
  then the name behind `type`, `func` or `const`, or those of a group of constants. Gen/FileWalk, FileWalkAll, FileNames and FileParts go through the text of every kind of file
  (Gen/FileText), Props/Declared has the names per kind and, from `generate`, that no two are the same. Gen/Affixes: names made from names that do not themselves look made
  (`Undecorated`) are different if their parts are.
* C105: imports. Spec/GoImports reads the import paths out of the tokens of a file, and says what it is to refer to a package (the package's name, a dot and a further word in sequence).
  `imports_used_partial` (Props/Imports): a file imports the list of its kind, without two packages of one name, and refers to each of them. Each reference is found in a
  declaration that is there for every schema (Gen/ImportsProof): its tokens are known by the theorems for that declaration, and they are a segment of the tokens of the file.
  Missing: that every package that is referred to is imported.
* C106: members and methods. Spec/GoSelectors reads them out of the declarations of a file (those of Spec/GoFile). `record_selectors` and `union_selectors` (Props/Selectors) have the complete list
  for every record and union, read from the text; so the list of methods that C58 is about is that of the text. `record_selectors_distinct_partial` and `union_selectors_distinct_partial`: no name
  twice. `allowed_union_partial` and `allowed_record_partial` (Props/Members) have conditions on the Avro names and on the types that Avro allows in a union in place of conditions on Go names. Missing, as it does not hold: `record_method_clash`, `record_field_clash`, `union_primitive_clash`, `union_member_clash`, `union_method_clash`.
* C87, as Go reads the file: Spec/GoHeader reads the comments at the beginning of a file, general comments too, which Spec/GoText does not have. `header_comments` (Props/Header): the tokens of the whole text handed to gofmt
  are those of the package clause and of the template. The names in the comment have no slash, as `basename` removes directories, so the first `*/` is the one that the code writes.
  The separator is `/`, that of Unix; a name of a package that is no Go identifier is not covered.
* Gen/FileText has the whole text of every kind of generated file (behind the package clause). `golden/compare.lean.txt` compares it, token by token,
  with the 232 generated files under /repo/v10/test and /repo/v10/example (`golden/result.txt`; run with `lake env lean --run`, not part of the build): all agree up to
  what gofmt changes (parentheses around a single result, the order of imports, `;` before a closing brace). The schema literal is taken from the file.
  This is a test of the transcription of the templates, not a theorem.

## Suspected defects in the code (to be proved as negations)

* D1 `vm/readers.go:15-29` `readBool` drops the `ReadByte` error: a truncated boolean is `false`.
* D2 `vm/readers.go:74-134` no limit on varint length, bits beyond 64 are dropped.
* D3 `compiler/method.go:390-393` no switch case for null read by a plain `null`: all offsets shift.
* D4 `compiler/instruction.go` `HintSize` is emitted for skipped arrays/maps and panics on the enclosing record.
* D5 `compiler/method.go:161-208` record methods are keyed by the writer's short Go name only.
* D6 `compiler/compile.go` no readability check at top level.
* D7 `container/reader.go:26-57` the magic check is wrong; any magic but `obj\x01` is accepted.
* D8 `container/reader.go` truncated files can end in plain `io.EOF`.
* D9 `container/writer.go:92-118` a failing record leaves bytes in the block.
* D10 `soe/soe.go:27-48` `Read` instead of `ReadFull`.
* D11 top-level nullable unions: null decodes to branch 0.
* D12 writer `null` into a reader union gives a union value that cannot be serialized.
* D13 generic decoding of null in arrays/maps/top level leads to a panic outside `recover`.
* D14 block counts are trusted (`HintSize`).
* D15 enum aliases use the enclosing namespace.
* D16 empty `fields`/`symbols` are dropped from the canonical form.
* D17 record/enum/fixed names match without namespace.
* D19 `schema/*.go` `Definition`/`Schema`: the text of a definition is moved to where it is first mentioned, but read
  there in another namespace.
* D20 `schema/*.go` `DefaultValue`: numbers go through `%v` of a `float64`; fixeds are copied from UTF-8 text; maps are
  added to, not replaced; entries of maps are not constructed; constructors can call themselves.
* D21 `templates/*.go` JSON methods: nil slices and maps are written as null; numbers out of the enum as "unknown"; null is
  accepted for every type; strings of any length for fixeds, any characters for bytes; map entries are kept when reading.
* D18 Go names of different Avro names may coincide.
* D22 `vm/eval.go:35` recurses as deep as the data is nested; a stack overflow cannot be recovered from.
* D24 (with D5) `compiler/method.go:170,179`: where a record contains another of the same Go name, the method that skips it
  calls itself without reading: a writer's schema of three such records ends the process for any data.
* D23 `schema/record.go:108-110` looks up the keys of a default among names and aliases, in random order.
* D25 `generic/record.go:40-43` puts the schema's own default, a map or a slice, into the result.
* D26 `generator/flat/templates/*`: tags and the keys of union members are put into the source without escaping.

## Trusted base

* Lean's kernel (4.33.0). No `sorry`, no `native_decide`, no `bv_decide`, no axioms of our own;
  nothing is imported from Mathlib.
* Axioms: every theorem in the manifest depends on at most `propext`, `Classical.choice` and
  `Quot.sound` (checked with `#print axioms`; see `AXIOMS.md` for the list per theorem).
* The model is a transcription by hand of the Go code into Lean functions. Each definition cites the
  file and lines it models. That the transcription is right is trusted; so is the meaning of Go as
  transcribed (wrap-around integers, maps without order, panics, short reads).
  It is tested against the program's own outputs: `Props/Vectors` holds the expected values of its unit tests and what it
  wrote into `container/avro`, `Props/Corpus` the code it wrote into `test/`, both compared by the kernel. `tools/corpus.py`
  and `tools/cmp.py` compare all 48 generated directories (481 declarations, 110 schemas) by evaluation. They agree, but
  for two files left over from older versions and one literal with `\u007f` where newer versions of Go write `\x7f`.
* The specifications in `Verif/Spec/*` are trusted to say what the English properties say.

### Modelled

`vm/` (readers, writers, evaluator, all instructions), `compiler/` (all of it: methods, switches, loops,
offsets, complete), `schema/` (types, `IsReadableBy`, Go names as far as the compiler uses them, `Definition`, `Schema` and `DefaultValue`), the
templates of `generator/flat` for arrays, maps, bytes, enums, fixeds, unions, records (serializers, constructors, decode
targets, JSON methods), `generic/` (all of it), `container/` (writer, reader, header, blocks, codecs as parameters), `soe/`,
`schema/canonical/`, `util/bytes.go`, `parser/` and `resolver/`, `cmd/gogen-avro/main.go`, and of the generator the
names (both namers) and which file is made from which definition or type (`generator/`, `generator/flat/generator.go`), the
header and the writing of the files (`generator/package.go`).

### Not modelled

* The Go compiler and runtime, memory limits (an allocation never fails), Go's memory model (C98 and C100 take a method call as one step).
* `encoding/json` as a reader and printer of text: schema documents and JSON encodings are JSON values. What it does with
  Go values (numbers, strings, slices, maps, pointers) is modelled in `Gen/Json`, from its documentation: it is not in /repo. `compress/flate` and `snappy`: functions with
  the assumption that decompression inverts compression, stated in the theorems that use it.
* The text of error messages; an error is one of a few values.
* Templates as text, but for declarations and constants (C90, C91), serializers (C96), the methods of targets (C99), constructors and `SetDefault` of records (C101), JSON methods (C102), functions that decode and open files (C103): the bodies of other generated functions are modelled as
  functions over the schema, one per template. `go/format` is a parameter.
* Logical types: the code has none. `legacy` packages and the `test/` and `example/` directories.

## What does not hold

These are theorems; each is a concrete execution of the model.

| Property | Theorem | What happens |
|---|---|---|
| C106 | `record_method_clash`, `record_field_clash`, `union_primitive_clash`, `union_member_clash`, `union_method_clash` | a struct has two members or methods of one name, and Go refuses it: a field `hintSize`, fields `id` and `Id`; in a union, `string` with a record `String`, a record named `UnionType` or like a method, such as `Serialize` |
| C104 | `suffix_clash`, `reader_clash`, `constructor_clash`, `constant_clash` | the package declares a name twice, and Go refuses it: records `Order` and `OrderFromSchema`, `OrderReader` (with containers) or `NewOrder`; an enum `Suit` with `red` and a fixed `SuitRed`, enums `A` with `bC` and `AB` with `C`, one enum with `red` and `Red` |
| C90 | `tag_injects`, `doc_refused` | a backquote in `golang.tags` ends the tag and what follows is code; NUL or a byte order mark in documentation makes the file no Go source |
| C91 | `union_key_injects` | the JSON key of a union member is not escaped |
| C83 | `overlong_accepted`, `int_overflow_accepted`, `other_bool_accepted`, `block_size_unchecked` | D2 and others: input that is no encoding is accepted |
| C10, C17 | `bool_truncated_accepted`, `bool_at_eof` | D1: a boolean cut off is read as false |
| C18 | `skipped_enum_unchecked` | the index of an enum that is skipped is not checked |
| C53 | `primitive_name_clash` | a definition may be named like a primitive type |
| C57 | `large_code_points_lost`, `fixed_json_length_not_checked` | JSON strings for bytes are not checked |
| C21, C60 | `reused_map_default_merged` | the default of a map field is added to the entries a reused variable had there |
| C21, C60 | `reused_union_stale` | null read into a reused optional union leaves the old value |
| C25, C28 | `jump_out_of_range`, `nullable_as_null_fails`, `int_read_as_null` | D3: a union read as null |
| C26 | `same_short_name_confused`, `same_short_name_not_restored` | D5: two records of the same Go name share a method |
| C27 | `two_readers_confused` | D5: a record read as two reader types |
| C31 | `alias_before_name` | an alias that is the name of a later field takes its data |
| C34 | `root_not_checked`, `union_root_not_checked` | D6: nothing is compared at the root |
| C37 | `generic_null_root_panics`, `generic_null_item_panics`, `generic_null_entry_panics` | D13: `Deserialize` panics on null at the root, in an array or in a map |
| C38 | `generic_promotion_keeps_int32`, `generic_default_is_raw_json` | promoted values keep the writer's Go type, defaults are raw JSON values |
| C39, C63 | `large_block_unreadable`, `unknown_codec_written`, `unknown_codec_unreadable` | files are written that cannot be read |
| C43 | `magic_not_checked` | D7 |
| C44 | `cut_looks_complete` | D8: some cut files look complete |
| C45 | `failed_record_damages_file` | D9 |
| C47 | `empty_records_never_end` | records without bytes are read without end |
| C49 | `soe_split_header_refused`, `soe_eager_reader_refused` | D10 |
| C58 | `underscore_field`, `digit_field`, `method_field`, `fields_clash`, `symbols_clash` | legal names without a usable Go name, or with the Go name of another field, symbol or method |
| C59 | `namespace_lost`, `snake_lost`, `namespaced_lost`, `container_lost`, `array_lost`, `union_lost`, `short_union_lost`, `test_file` | a generated file replaces another one |
| C62 | `checksum_not_checked` | the snappy checksum is cut off and not compared |
| C64 | `enum_alias_elsewhere`, `empty_namespace_ignored` | D15: namespaces of enum aliases, empty namespace |
| C66 | `empty_fields_dropped` | D16: empty lists are left out of the canonical form |
| C67 | `schema_refused`, `schema_renames`, `union_schema_refused`, `schema_changes_type` | D19: the schema a generated type carries is refused by the parser, or names other types |
| C69 | `long_default_inexact`, `float_default_inexact`, `fixed_default_wrong`, `map_of_fixed_default_refused`, `map_of_union_default_refused`, `map_of_map_default_panics`, `map_of_record_default_lost`, `nested_map_default_merged`, `recursive_default_diverges` | D20: defaults that become other values, code that does not compile, panics or does not return |
| C70 | `nan_refused`, `bad_text_changed`, `nil_slice_null`, `nil_map_null`, `unknown_symbol_written`, `deep_refused` | D21: values whose JSON is refused, changed or no Avro JSON |
| C71 | `map_entries_stay` | D21: entries of a map stay when another map is read into it |
| C73 | `two_arrays_confused` | two arrays in a union are confused in JSON |
| C74 | `null_int_accepted`, `bytes_char_cut`, `fixed_short_accepted`, `twice_accepted` | D21: JSON that encodes no value is accepted |
| C75 | `lax_recursive_fails`, `lax_fixed_cut` | with the option a record that contains itself is not read under another name; fixeds of other sizes are, cut off |
| C76 | `null_read_as_optional` | D12: a null field read by a reader that made it optional is a union that is not nil and cannot be serialized |
| C78 | `stack_exhausted_at_once` | a record with itself as a field compiles, and decoding ends the process on every input |
| C78 | `stack_exhausted`, `memory_asked` | D22: input of a few bytes per activation exhausts the stack, ten bytes ask for any amount of memory (D14) |
| C78, C26 | `stack_exhausted_by_names` | D24: a writer's schema with records of one short name ends the process whatever the data |
| C80 | `default_changed_by_caller`, `default_shared_within` | D25: a default that is a map or an array is shared by the schema and all results |
| C79 | `order_matters` | D23: a default that names a field by name and by alias is another value in another run of the generator |
| C85 | `half_written`, `missing_document_ignored` | a run that fails leaves some of the files, which ones depends on the order of a map; a path that matches no file is no error |
| C88 | `order_decides_package` | two definitions with one file name: the later replaces the earlier |
