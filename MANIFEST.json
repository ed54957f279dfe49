{
 "claims": [
  {
   "property": "C01",
   "status": "proved",
   "theorems": [
    "Verif.Props.long_roundtrip"
   ],
   "note": ""
  },
  {
   "property": "C02",
   "status": "proved",
   "theorems": [
    "Verif.Props.int_roundtrip"
   ],
   "note": ""
  },
  {
   "property": "C03",
   "status": "proved",
   "theorems": [
    "Verif.Props.long_wire_form",
    "Verif.Props.int_wire_form",
    "Verif.Props.varint_value",
    "Verif.Props.varint_shape",
    "Verif.Props.long_length",
    "Verif.Props.int_length"
   ],
   "note": ""
  },
  {
   "property": "C04",
   "status": "proved",
   "theorems": [
    "Verif.Props.double_roundtrip",
    "Verif.Props.float_roundtrip",
    "Verif.Props.double_wire_form",
    "Verif.Props.float_wire_form"
   ],
   "note": ""
  },
  {
   "property": "C05",
   "status": "proved",
   "theorems": [
    "Verif.Props.bytes_roundtrip",
    "Verif.Props.string_roundtrip",
    "Verif.Props.length_refused",
    "Verif.Props.bytes_length_in_range"
   ],
   "note": ""
  },
  {
   "property": "C06",
   "status": "proved",
   "theorems": [
    "Verif.Props.bool_roundtrip",
    "Verif.Props.bool_bytes",
    "Verif.Props.bool_wire_form"
   ],
   "note": ""
  },
  {
   "property": "C07",
   "status": "proved",
   "theorems": [
    "Verif.Props.int_read_as_long"
   ],
   "note": ""
  },
  {
   "property": "C08",
   "status": "partial",
   "theorems": [
    "Verif.Props.same_bytes_same_outcome",
    "Verif.Props.plain_then_byte_reader_partial",
    "Verif.Props.byte_then_plain_reader_partial",
    "Verif.Props.any_reader_same_outcome",
    "Verif.Props.encoding_any_reader",
    "Verif.Props.primitives_on_any_reader"
   ],
   "note": "For regular schemas (see the quantifier of the property; `Suited`/`WellFormed` in the model). Splitting into pieces never matters. ReadByte against plain Read: the same on every well-formed encoding; on malformed input a boolean at the end of the input is an exception, see bool_at_eof."
  },
  {
   "property": "C09",
   "status": "proved",
   "theorems": [
    "Verif.Props.writers_agree",
    "Verif.Props.same_bytes_any_writer",
    "Verif.Props.failing_writer",
    "Verif.Props.only_writer_fails",
    "Verif.Props.full_writer"
   ],
   "note": "Any writer that accepts bytes in order and may fail; ByteWriter, StringWriter and plain io.Writer paths."
  },
  {
   "property": "C10",
   "status": "partial",
   "theorems": [
    "Verif.Props.truncated_error",
    "Verif.Props.int_truncated",
    "Verif.Props.long_truncated",
    "Verif.Props.float_truncated",
    "Verif.Props.double_truncated",
    "Verif.Props.bytes_truncated",
    "Verif.Props.string_truncated",
    "Verif.Props.bool_truncated_partial",
    "Verif.Props.bool_truncated_accepted"
   ],
   "note": "violated for booleans on readers offering ReadByte: bool_truncated_accepted"
  },
  {
   "property": "C100",
   "status": "proved",
   "theorems": [
    "Verif.Props.concurrent_generic_value",
    "Verif.Props.concurrent_generic_own",
    "Verif.Props.concurrent_generic_panics",
    "Verif.Props.concurrent_generic_error",
    "Verif.Props.concurrent_generic_apart",
    "Verif.Props.concurrent_generic_spares",
    "Verif.Props.concurrent_generic_returns",
    "Verif.Props.concurrent_generic_fails",
    "Verif.Props.concurrent_generic_ends",
    "Verif.Props.parsed_defaults",
    "Verif.Props.grunning_ok"
   ],
   "note": "Each method call of vm.Eval is one step, and so is Datum(). Nobody writes to the objects in which schemas keep defaults: what happens when somebody does is in C80. Each call has its own reader; Go's memory model is not modelled, but no object that is written is touched by two calls."
  },
  {
   "property": "C101",
   "status": "proved",
   "theorems": [
    "Verif.Props.default_code",
    "Verif.Props.default_number",
    "Verif.Props.code_default_partial"
   ],
   "note": "The meaning of the Go constructs used is Spec/GoDefault and Spec/GoNumber (trusted). default_code holds without the conditions of C69: where the code does not set what the default means, the statements do the same wrong thing. code_default_partial combines it with C69 and has the conditions of C69. The records on which SetDefault is called have all their fields (as typed Go values do)."
  },
  {
   "property": "C102",
   "status": "proved",
   "theorems": [
    "Verif.Props.record_marshal_code",
    "Verif.Props.record_unmarshal_code",
    "Verif.Props.union_marshal_code",
    "Verif.Props.union_unmarshal_code",
    "Verif.Props.enum_json_code",
    "Verif.Props.fixed_json_code",
    "Verif.Props.bytes_json_code"
   ],
   "note": "The meaning of the Go constructs used is Spec/GoJson (trusted). json.Marshal and json.Unmarshal of the parts of the receiver are taken to be those of C70 to C72. The text of UnmarshalJSON of a record can be read if the constructor of the record returns. What is left in the receiver after an error is not part of it."
  },
  {
   "property": "C103",
   "status": "proved",
   "theorems": [
    "Verif.Props.record_decode_text",
    "Verif.Props.union_decode_text",
    "Verif.Props.container_text",
    "Verif.Props.deserialize_call",
    "Verif.Props.deserialize_from_call",
    "Verif.Props.union_deserialize_call",
    "Verif.Props.union_deserialize_from_call",
    "Verif.Props.bad_schema_call",
    "Verif.Props.new_writer_call",
    "Verif.Props.new_reader_call",
    "Verif.Props.read_call"
   ],
   "note": "The meaning of the Go constructs used is Spec/GoEntry (trusted). The value that the constructor returns is that of the model of targets (C101 has the constructor itself). json.Marshal and json.Unmarshal of schema documents are parameters. What the value and the reader hold after an error of vm.Eval is left open. With C77 and C93 this gives round trips of the generated functions: generated_roundtrip_partial, generated_exchange_partial, generated_file_roundtrip_partial."
  },
  {
   "property": "C104",
   "status": "partial",
   "theorems": [
    "Verif.Props.file_declares_partial",
    "Verif.Props.union_constructor_text",
    "Verif.Props.package_names_partial",
    "Verif.Props.suffix_clash",
    "Verif.Props.reader_clash",
    "Verif.Props.constructor_clash",
    "Verif.Props.constant_clash"
   ],
   "note": "file_declares_partial: the names per kind of file, for names that Avro allows, documentation and tags that leave the text whole (C90 has what goes wrong otherwise). package_names_partial: no name twice, for schemas whose Go names do not look as if they were made from others and whose enum constants are distinct; the theorems ending in _clash show that otherwise names do clash, so the full statement is false of the code. The package clause is not part of the text."
  },
  {
   "property": "C105",
   "status": "partial",
   "theorems": [
    "Verif.Props.imports_used_partial"
   ],
   "note": "Missing: that every package that is referred to is imported; names, documentation and tags as for C104."
  },
  {
   "property": "C106",
   "status": "partial",
   "theorems": [
    "Verif.Props.record_selectors",
    "Verif.Props.union_selectors",
    "Verif.Props.record_selectors_distinct_partial",
    "Verif.Props.union_selectors_distinct_partial",
    "Verif.Props.allowed_union_partial",
    "Verif.Props.allowed_record_partial",
    "Verif.Props.record_method_clash",
    "Verif.Props.record_field_clash",
    "Verif.Props.union_primitive_clash",
    "Verif.Props.union_member_clash",
    "Verif.Props.union_method_clash"
   ],
   "note": "The lists of members and methods are complete. No name twice: for distinct Go names of fields and types, without those of the theorems ending in _clash, for which it does not hold."
  },
  {
   "property": "C11",
   "status": "partial",
   "theorems": [
    "Verif.Props.roundtrip_partial",
    "Verif.Props.root_null_not_restored"
   ],
   "note": "For regular schemas (see the quantifier of the property; `Suited`/`WellFormed` in the model). Null at the root of a union type is not restored; that is proved as a counterexample."
  },
  {
   "property": "C12",
   "status": "partial",
   "theorems": [
    "Verif.Props.stream_partial",
    "Verif.Props.self_delimiting"
   ],
   "note": "For regular schemas (see the quantifier of the property; `Suited`/`WellFormed` in the model). stream_partial excludes null at the root."
  },
  {
   "property": "C13",
   "status": "proved",
   "theorems": [
    "Verif.Props.unambiguous"
   ],
   "note": "For regular schemas (see the quantifier of the property; `Suited`/`WellFormed` in the model)."
  },
  {
   "property": "C14",
   "status": "proved",
   "theorems": [
    "Verif.Props.any_layout"
   ],
   "note": "For regular schemas (see the quantifier of the property; `Suited`/`WellFormed` in the model)."
  },
  {
   "property": "C15",
   "status": "proved",
   "theorems": [
    "Verif.Props.map_order_invisible"
   ],
   "note": "For regular schemas (see the quantifier of the property; `Suited`/`WellFormed` in the model)."
  },
  {
   "property": "C16",
   "status": "proved",
   "theorems": [
    "Verif.Props.last_key_wins"
   ],
   "note": "For regular schemas (see the quantifier of the property; `Suited`/`WellFormed` in the model)."
  },
  {
   "property": "C17",
   "status": "partial",
   "theorems": [
    "Verif.Props.prefix_unreadable",
    "Verif.Props.truncated",
    "Verif.Props.truncated_value",
    "Verif.Props.truncated_any_reader",
    "Verif.Props.bool_at_eof",
    "Verif.Props.bool_at_eof_plain"
   ],
   "note": "For regular schemas (see the quantifier of the property; `Suited`/`WellFormed` in the model). Exception: a boolean at the end of a ByteReader's input, proved as a counterexample (bool_at_eof)."
  },
  {
   "property": "C18",
   "status": "partial",
   "theorems": [
    "Verif.Props.bad_unread",
    "Verif.Props.bad_union_index",
    "Verif.Props.bad_index_partial",
    "Verif.Props.skipped_enum_unchecked"
   ],
   "note": "For regular schemas (see the quantifier of the property; `Suited`/`WellFormed` in the model). Exception: the index of an enum that is skipped is not checked (counterexample)."
  },
  {
   "property": "C19",
   "status": "proved",
   "theorems": [
    "Verif.Props.decoding_ends",
    "Verif.Props.any_target_ends"
   ],
   "note": "For regular schemas (see the quantifier of the property; `Suited`/`WellFormed` in the model)."
  },
  {
   "property": "C20",
   "status": "partial",
   "theorems": [
    "Verif.Props.no_lookahead_partial",
    "Verif.Props.no_lookahead_any_reader"
   ],
   "note": "For regular schemas (see the quantifier of the property; `Suited`/`WellFormed` in the model). With ReadByte only if something is left over (bool_at_eof)."
  },
  {
   "property": "C21",
   "status": "partial",
   "theorems": [
    "Verif.Props.decoding_ends",
    "Verif.Props.fields_by_name",
    "Verif.Props.reused_partial",
    "Verif.Props.reused_record",
    "Verif.Props.reused_stream",
    "Verif.Props.defaults_replace",
    "Verif.Props.defaults_over",
    "Verif.Props.reused_map_default_merged",
    "Verif.Props.reused_union_stale"
   ],
   "note": "For regular schemas (see the quantifier of the property; `Suited`/`WellFormed` in the model). For variables used before: proved for records whose defaults have types that one assignment sets. Two cases contradict the property and are proved: a default of type map is merged with what the field held, and null read into a used optional union leaves the old value."
  },
  {
   "property": "C22",
   "status": "partial",
   "theorems": [
    "Verif.Props.resolution_partial",
    "Verif.Props.resolution_sound",
    "Verif.Props.resolution_exact",
    "Verif.Props.dropped_array_fails"
   ],
   "note": "For regular schemas (see the quantifier of the property; `Suited`/`WellFormed` in the model). Values agree with Avro's rules whenever a value is returned; data with a non-empty array or map in a field the reader lacks is an error (counterexample dropped_array_fails)."
  },
  {
   "property": "C23",
   "status": "proved",
   "theorems": [
    "Verif.Props.any_map_order"
   ],
   "note": "For regular schemas (see the quantifier of the property; `Suited`/`WellFormed` in the model)."
  },
  {
   "property": "C24",
   "status": "proved",
   "theorems": [
    "Verif.Props.compile_terminates"
   ],
   "note": "All schemas, orders, with and without AllowLaxNames."
  },
  {
   "property": "C25",
   "status": "partial",
   "theorems": [
    "Verif.Props.in_range_partial",
    "Verif.Props.jump_out_of_range"
   ],
   "note": "For regular schemas (see the quantifier of the property; `Suited`/`WellFormed` in the model). A union read as null gives a program with a jump out of range (counterexample)."
  },
  {
   "property": "C26",
   "status": "partial",
   "theorems": [
    "Verif.Props.same_short_name_confused",
    "Verif.Props.same_short_name_not_restored",
    "Verif.Props.fields_by_name"
   ],
   "note": "The property is false of the code: two counterexamples. fields_by_name is what holds when different records have different Go names."
  },
  {
   "property": "C27",
   "status": "partial",
   "theorems": [
    "Verif.Props.two_readers_confused",
    "Verif.Props.fields_by_name"
   ],
   "note": "The property is false of the code: counterexample. fields_by_name is what holds when no record can be read as two."
  },
  {
   "property": "C28",
   "status": "partial",
   "theorems": [
    "Verif.Props.nullable_as_null_fails",
    "Verif.Props.int_read_as_null",
    "Verif.Props.nullable_as_nullable_partial"
   ],
   "note": "The property is false of the code: two counterexamples. nullable_as_nullable_partial: reader unions with a null member."
  },
  {
   "property": "C29",
   "status": "proved",
   "theorems": [
    "Verif.Props.promotion"
   ],
   "note": "For regular schemas (see the quantifier of the property; `Suited`/`WellFormed` in the model)."
  },
  {
   "property": "C30",
   "status": "proved",
   "theorems": [
    "Verif.Props.fields_by_name",
    "Verif.Props.other_fields_do_not_matter"
   ],
   "note": "For regular schemas (see the quantifier of the property; `Suited`/`WellFormed` in the model)."
  },
  {
   "property": "C31",
   "status": "partial",
   "theorems": [
    "Verif.Props.renamed_field",
    "Verif.Props.alias_before_name"
   ],
   "note": "For regular schemas (see the quantifier of the property; `Suited`/`WellFormed` in the model). Exception: an alias that is also the name of a later field (counterexample)."
  },
  {
   "property": "C32",
   "status": "proved",
   "theorems": [
    "Verif.Props.symbols_by_name"
   ],
   "note": "For regular schemas (see the quantifier of the property; `Suited`/`WellFormed` in the model)."
  },
  {
   "property": "C33",
   "status": "proved",
   "theorems": [
    "Verif.Props.union_branch",
    "Verif.Props.union_no_branch",
    "Verif.Props.union_as_plain",
    "Verif.Props.plain_into_union",
    "Verif.Props.plain_no_branch"
   ],
   "note": "For regular schemas (see the quantifier of the property; `Suited`/`WellFormed` in the model)."
  },
  {
   "property": "C34",
   "status": "partial",
   "theorems": [
    "Verif.Props.refused_iff",
    "Verif.Props.incompatible_refused_partial",
    "Verif.Props.fields_refused",
    "Verif.Props.root_not_checked",
    "Verif.Props.union_root_not_checked"
   ],
   "note": "For regular schemas (see the quantifier of the property; `Suited`/`WellFormed` in the model). refused_iff says exactly when Compile fails. Types at the root, other than records, enums and fixeds, are not compared (counterexamples)."
  },
  {
   "property": "C35",
   "status": "proved",
   "theorems": [
    "Verif.Props.isReadableBy_table",
    "Verif.Props.isReadableBy_refl",
    "Verif.Props.isReadableBy_empty",
    "Verif.Props.isReadableBy_unions"
   ],
   "note": ""
  },
  {
   "property": "C36",
   "status": "proved",
   "theorems": [
    "Verif.Props.string_as_bytes",
    "Verif.Props.bytes_as_string"
   ],
   "note": "For regular schemas (see the quantifier of the property; `Suited`/`WellFormed` in the model)."
  },
  {
   "property": "C37",
   "status": "partial",
   "theorems": [
    "Verif.Props.generic_decodes_partial",
    "Verif.Props.generic_reads_generated_partial",
    "Verif.Props.generic_panics",
    "Verif.Props.generic_null_root_panics",
    "Verif.Props.generic_null_item_panics",
    "Verif.Props.generic_null_entry_panics"
   ],
   "note": "For every well-formed schema, every value of its type and every encoding of it, the result is the generic form of the value; the code panics exactly on a null at the root, in an array or in a map, which contradicts the property (concrete cases proved). For inputs that are no encoding see C81 and C82."
  },
  {
   "property": "C38",
   "status": "partial",
   "theorems": [
    "Verif.Props.generic_reader_types_partial",
    "Verif.Props.generic_shows",
    "Verif.Props.generic_promotion_keeps_int32",
    "Verif.Props.generic_default_is_raw_json"
   ],
   "note": "Holds where reading involves no promotion and no default; otherwise false: promoted values keep the writer's Go type and defaults are raw JSON values. generic_shows says what is returned in every readable case."
  },
  {
   "property": "C39",
   "status": "partial",
   "theorems": [
    "Verif.Props.container_roundtrip_partial",
    "Verif.Props.container_read",
    "Verif.Props.large_block_unreadable"
   ],
   "note": "The compression libraries are parameters; assumed: decompressing gives back what was compressed (Libs.Inverse). Every history ended by Flush, all placements of Flush, all records per block, the codecs null, deflate and snappy; also files of other writers with any reader schema. Missing: blocks of more than 2147483647 bytes, which are written but not read."
  },
  {
   "property": "C40",
   "status": "proved",
   "theorems": [
    "Verif.Props.written",
    "Verif.Props.names_of_specification",
    "Verif.Props.checksum_big_endian"
   ],
   "note": "The compression libraries are parameters; assumed: decompressing gives back what was compressed (Libs.Inverse). Codecs null, deflate, snappy; output shorter than 2^63 bytes; the destination does not fail (else C61)."
  },
  {
   "property": "C41",
   "status": "proved",
   "theorems": [
    "Verif.Props.flush_twice",
    "Verif.Props.flush_leaves_nothing",
    "Verif.Props.no_records",
    "Verif.Props.written"
   ],
   "note": ""
  },
  {
   "property": "C42",
   "status": "proved",
   "theorems": [
    "Verif.Props.cut_file",
    "Verif.Props.cut_in_block",
    "Verif.Props.container_beginning"
   ],
   "note": "The compression libraries are parameters; assumed: decompressing gives back what was compressed (Libs.Inverse). Every file with blocks of at most 2147483647 bytes, every beginning of it. The error needs records with at least one byte (C47)."
  },
  {
   "property": "C43",
   "status": "partial",
   "theorems": [
    "Verif.Props.foreign_sync_partial",
    "Verif.Props.magic_not_checked",
    "Verif.Props.schema_required"
   ],
   "note": "The part about the magic is false of the code: magic_not_checked."
  },
  {
   "property": "C44",
   "status": "partial",
   "theorems": [
    "Verif.Props.cut_noticed_partial",
    "Verif.Props.cut_looks_complete",
    "Verif.Props.cut_in_block"
   ],
   "note": "The property is false of the code for cuts before a sync marker or in the count or size of a block: cut_looks_complete. For all other cuts it holds."
  },
  {
   "property": "C45",
   "status": "partial",
   "theorems": [
    "Verif.Props.earlier_records_survive_partial",
    "Verif.Props.failed_record_damages_file"
   ],
   "note": "The property is false of the code: counterexample. Records before the last Flush survive."
  },
  {
   "property": "C46",
   "status": "proved",
   "theorems": [
    "Verif.Props.written",
    "Verif.Props.container_beginning"
   ],
   "note": "The compression libraries are parameters; assumed: decompressing gives back what was compressed (Libs.Inverse). Same conditions as C40."
  },
  {
   "property": "C47",
   "status": "partial",
   "theorems": [
    "Verif.Props.reading_stops_partial",
    "Verif.Props.empty_records_never_end",
    "Verif.Props.container_read"
   ],
   "note": "The property is false of the code for records without any bytes: counterexample."
  },
  {
   "property": "C48",
   "status": "proved",
   "theorems": [
    "Verif.Props.soe_layout",
    "Verif.Props.soe_roundtrip",
    "Verif.Props.soe_value",
    "Verif.Props.soe_marker_checked",
    "Verif.Props.soe_short_refused"
   ],
   "note": "Round trip on readers that fulfil a request when enough data is there; see C49 for the others."
  },
  {
   "property": "C49",
   "status": "partial",
   "theorems": [
    "Verif.Props.soe_split_partial",
    "Verif.Props.soe_split_header_refused",
    "Verif.Props.soe_eager_reader_refused"
   ],
   "note": "The property is false of the code: two counterexamples. soe_split_partial: readers that deliver the marker and the fingerprint whole."
  },
  {
   "property": "C50",
   "status": "proved",
   "theorems": [
    "Verif.Props.fingerprint_is_crc64",
    "Verif.Props.fingerprint_length"
   ],
   "note": "All byte strings."
  },
  {
   "property": "C51",
   "status": "proved",
   "theorems": [
    "Verif.Props.local_change_detected",
    "Verif.Props.local_change_detected_at",
    "Verif.Props.nine_bytes_undetected"
   ],
   "note": "All texts."
  },
  {
   "property": "C52",
   "status": "proved",
   "theorems": [
    "Verif.Props.canonical_form_exists",
    "Verif.Props.canonical_same",
    "Verif.Props.canonical_ignores"
   ],
   "note": "Spec/Variant says which attributes are ignored. Schemas that mention a definition by one of its aliases are excluded (ByName), since moving the alias changes what is meant."
  },
  {
   "property": "C53",
   "status": "partial",
   "theorems": [
    "Verif.Props.canonical_decides_partial",
    "Verif.Props.canonical_equal_data_partial",
    "Verif.Props.primitive_name_clash"
   ],
   "note": "Holds unless a definition without namespace is named like a primitive type, which the parser accepts; primitive_name_clash shows two schemas with the same canonical form and different data."
  },
  {
   "property": "C54",
   "status": "proved",
   "theorems": [
    "Verif.Props.name_dotted",
    "Verif.Props.name_plain",
    "Verif.Props.name_cases",
    "Verif.Props.name_reparsed",
    "Verif.Props.parsed_name_plain",
    "Verif.Props.definition_named"
   ],
   "note": ""
  },
  {
   "property": "C55",
   "status": "proved",
   "theorems": [
    "Verif.Props.parse_resolved",
    "Verif.Props.parse_means",
    "Verif.Props.parse_accepts",
    "Verif.Props.parse_refuses",
    "Verif.Props.parse_names"
   ],
   "note": "Over parsed JSON values; the JSON reader of the Go library is trusted. The rules for schema documents are Spec/SchemaDoc.lean."
  },
  {
   "property": "C56",
   "status": "proved",
   "theorems": [
    "Verif.Props.registrations_accepted",
    "Verif.Props.registered_found",
    "Verif.Props.name_conflict",
    "Verif.Props.same_again",
    "Verif.Props.alias_conflict",
    "Verif.Props.names_stay"
   ],
   "note": ""
  },
  {
   "property": "C57",
   "status": "proved",
   "theorems": [
    "Verif.Props.byte_string_roundtrip",
    "Verif.Props.byte_string_injective",
    "Verif.Props.decoded_length",
    "Verif.Props.decoded_faithful",
    "Verif.Props.large_code_points_lost",
    "Verif.Props.fixed_json_roundtrip",
    "Verif.Props.fixed_json_length_not_checked"
   ],
   "note": "JSON strings are specified in Spec/JsonText by the rules of RFC 8259. Characters above U+00FF, which EncodeByteString never writes, lose their high bits when decoded (large_code_points_lost); the generated fixed decoder does not check the length (fixed_json_length_not_checked)."
  },
  {
   "property": "C58",
   "status": "partial",
   "theorems": [
    "Verif.Props.field_name_exported_partial",
    "Verif.Props.underscore_field",
    "Verif.Props.digit_field",
    "Verif.Props.method_field",
    "Verif.Props.field_names_distinct_partial",
    "Verif.Props.fields_clash",
    "Verif.Props.type_name_exported_partial",
    "Verif.Props.symbol_exported",
    "Verif.Props.symbol_names_distinct_partial",
    "Verif.Props.symbols_clash"
   ],
   "note": "The property is false of the code for names of underscores, names with a digit after underscores, fields named hintSize and setUnionElem, and pairs such as foo and Foo: counterexamples. ASCII names, both namers."
  },
  {
   "property": "C59",
   "status": "partial",
   "theorems": [
    "Verif.Props.definitions_written_partial",
    "Verif.Props.file_name_injective_partial",
    "Verif.Props.namespace_lost",
    "Verif.Props.snake_lost",
    "Verif.Props.namespaced_lost",
    "Verif.Props.container_lost",
    "Verif.Props.array_lost",
    "Verif.Props.union_lost",
    "Verif.Props.short_union_lost",
    "Verif.Props.test_file"
   ],
   "note": "The property is false of the code: definitions of one Go name or one file name overwrite each other, counterexamples. It holds for distinct camel case Go names that are not reserved, without short union names. The text of the files is not modelled, only which definition or type each file is made from."
  },
  {
   "property": "C60",
   "status": "partial",
   "theorems": [
    "Verif.Props.same_bytes_same_outcome",
    "Verif.Props.any_map_order",
    "Verif.Props.decoding_ends",
    "Verif.Props.reused_partial",
    "Verif.Props.reused_record",
    "Verif.Props.reused_stream",
    "Verif.Props.reused_map_default_merged",
    "Verif.Props.reused_union_stale"
   ],
   "note": "For regular schemas (see the quantifier of the property; `Suited`/`WellFormed` in the model). For variables used before see C21: the exceptions are proved to contradict the property."
  },
  {
   "property": "C61",
   "status": "proved",
   "theorems": [
    "Verif.Props.failing_destination",
    "Verif.Props.cut_file"
   ],
   "note": "The compression libraries are parameters; assumed: decompressing gives back what was compressed (Libs.Inverse). "
  },
  {
   "property": "C62",
   "status": "partial",
   "theorems": [
    "Verif.Props.checksum_not_checked"
   ],
   "note": "The property is false of the code: for every block, whatever its checksum, the records are delivered."
  },
  {
   "property": "C63",
   "status": "partial",
   "theorems": [
    "Verif.Props.container_roundtrip_partial",
    "Verif.Props.unknown_codec_written",
    "Verif.Props.codec_error_not_sync",
    "Verif.Props.unknown_codec_unreadable",
    "Verif.Props.large_block_unreadable"
   ],
   "note": "The property is false of the code: unknown codecs, large blocks. container_roundtrip_partial is what holds."
  },
  {
   "property": "C64",
   "status": "partial",
   "theorems": [
    "Verif.Props.aliases_placed_partial",
    "Verif.Props.enum_alias_elsewhere",
    "Verif.Props.empty_namespace_ignored"
   ],
   "note": "The property is false of the code for the aliases of enums and for empty namespace attributes: counterexamples. aliases_placed_partial: records and fixeds."
  },
  {
   "property": "C65",
   "status": "proved",
   "theorems": [
    "Verif.Props.files_in_any_order",
    "Verif.Props.command_accepts",
    "Verif.Props.command_means"
   ],
   "note": ""
  },
  {
   "property": "C66",
   "status": "partial",
   "theorems": [
    "Verif.Props.canonical_is_pcf_partial",
    "Verif.Props.empty_fields_dropped"
   ],
   "note": "Spec/Pcf describes Parsing Canonical Form. Holds for legal documents in which no record has an empty list of fields and no enum an empty list of symbols; empty_fields_dropped shows the difference."
  },
  {
   "property": "C67",
   "status": "partial",
   "theorems": [
    "Verif.Props.schema_written",
    "Verif.Props.schema_reparsed_partial",
    "Verif.Props.union_schema_reparsed_partial",
    "Verif.Props.schema_reparsed_one_namespace",
    "Verif.Props.schema_reparsed_spelled_out",
    "Verif.Props.schema_refused",
    "Verif.Props.schema_renames",
    "Verif.Props.union_schema_refused",
    "Verif.Props.schema_changes_type"
   ],
   "note": "Schema() never fails. It is accepted and describes the type if every definition may be moved to the places where it is mentioned (its name and aliases are read the same there): in particular if there is one namespace or all namespaces are spelled out, and no enum has aliases. Without that it is false: the last four theorems are counterexamples. json.Marshal followed by json.Unmarshal is taken to be the identity."
  },
  {
   "property": "C68",
   "status": "proved",
   "theorems": [
    "Verif.Props.same_encodings",
    "Verif.Props.same_resolution",
    "Verif.Props.same_readability",
    "Verif.Props.schema_same_data",
    "Verif.Props.own_schema_reads"
   ],
   "note": "Same (Spec/Same) is agreement in all but documentation; C67 says when the carried schema is Same. own_schema_reads composes it with C22 for the schema read back."
  },
  {
   "property": "C69",
   "status": "partial",
   "theorems": [
    "Verif.Props.new_default_partial",
    "Verif.Props.set_default_partial",
    "Verif.Props.set_default_any_partial",
    "Verif.Props.missing_field_default_partial",
    "Verif.Props.default_unique",
    "Verif.Props.long_default_inexact",
    "Verif.Props.float_default_inexact",
    "Verif.Props.fixed_default_wrong",
    "Verif.Props.map_of_fixed_default_refused",
    "Verif.Props.map_of_union_default_refused",
    "Verif.Props.map_of_map_default_panics",
    "Verif.Props.map_of_record_default_lost",
    "Verif.Props.nested_map_default_merged",
    "Verif.Props.recursive_default_diverges"
   ],
   "note": "The property is false of the code: the last nine theorems are counterexamples. It holds for defaults that meet the conditions of DefaultMeans env true (longs of at most 53 bits, floats settled by their nearest double, ASCII fixeds, map items set by one assignment, no map or record default over another), if the constructors return."
  },
  {
   "property": "C70",
   "status": "partial",
   "theorems": [
    "Verif.Props.marshal_avro_partial",
    "Verif.Props.marshalled_finite",
    "Verif.Props.nan_refused",
    "Verif.Props.bad_text_changed",
    "Verif.Props.nil_slice_null",
    "Verif.Props.nil_map_null",
    "Verif.Props.unknown_symbol_written",
    "Verif.Props.deep_refused"
   ],
   "note": "Texts are the trees they denote: the lexer and printer of encoding/json are trusted; what it does with Go types is modelled (Gen/Json). Holds for values with finite floats and UTF-8 text, nested at most 10000 deep, if names in records, enums and unions are different. The other theorems show what happens otherwise."
  },
  {
   "property": "C71",
   "status": "proved",
   "theorems": [
    "Verif.Props.unmarshal_avro",
    "Verif.Props.new_blank",
    "Verif.Props.json_unique",
    "Verif.Props.map_entries_stay"
   ],
   "note": "Texts are the trees they denote: the lexer and printer of encoding/json are trusted; what it does with Go types is modelled (Gen/Json). Up to the nesting of 10000 that encoding/json accepts. map_entries_stay: why the variable must have no map entries."
  },
  {
   "property": "C72",
   "status": "partial",
   "theorems": [
    "Verif.Props.unmarshal_extended_partial"
   ],
   "note": "Texts are the trees they denote: the lexer and printer of encoding/json are trusted; what it does with Go types is modelled (Gen/Json). Conditions on defaults as in C69."
  },
  {
   "property": "C73",
   "status": "partial",
   "theorems": [
    "Verif.Props.json_round_trip_partial",
    "Verif.Props.marshal_injective",
    "Verif.Props.two_arrays_confused"
   ],
   "note": "Texts are the trees they denote: the lexer and printer of encoding/json are trusted; what it does with Go types is modelled (Gen/Json). Conditions as in C70; two_arrays_confused is a counterexample."
  },
  {
   "property": "C74",
   "status": "partial",
   "theorems": [
    "Verif.Props.unmarshal_wrong_refused_partial",
    "Verif.Props.wrong_is_wrong",
    "Verif.Props.null_int_accepted",
    "Verif.Props.bytes_char_cut",
    "Verif.Props.fixed_short_accepted",
    "Verif.Props.twice_accepted"
   ],
   "note": "Texts are the trees they denote: the lexer and printer of encoding/json are trusted; what it does with Go types is modelled (Gen/Json). The property is false of the code: the last four theorems are counterexamples. Wrong (Spec/JsonEnc) lists the errors that are found."
  },
  {
   "property": "C75",
   "status": "partial",
   "theorems": [
    "Verif.Props.lax_same_program",
    "Verif.Props.lax_same_outcome",
    "Verif.Props.lax_root_renamed_partial",
    "Verif.Props.lax_resolution_partial",
    "Verif.Props.lax_error_reason",
    "Verif.Props.lax_recursive_fails",
    "Verif.Props.lax_field_refused",
    "Verif.Props.lax_fixed_cut"
   ],
   "note": "Every schema, input and reader; DeserializesLax is Compile with the option and vm.Eval into a generated type. What is missing: readers whose root definition is mentioned in a field, for which the property is false (lax_recursive_fails); and that nothing but names is relaxed, which is false for fixeds in unions (lax_fixed_cut)."
  },
  {
   "property": "C76",
   "status": "partial",
   "theorems": [
    "Verif.Props.null_is_empty",
    "Verif.Props.null_read_as_null",
    "Verif.Props.null_read_as_optional"
   ],
   "note": "Null at any place is read as null (null_read_as_null); the claim for readers that make the field optional is false of the code, which is proved as a counterexample. The round trip (roundtrip_partial, C11) covers schemas with null outside unions."
  },
  {
   "property": "C77",
   "status": "partial",
   "theorems": [
    "Verif.Props.command_names",
    "Verif.Props.command_closed",
    "Verif.Props.document_wellFormed",
    "Verif.Props.document_copy",
    "Verif.Props.document_roundtrip_partial",
    "Verif.Props.document_written",
    "Verif.Props.document_evolution_partial",
    "Verif.Props.generated_roundtrip_partial",
    "Verif.Props.generated_exchange_partial"
   ],
   "note": "Every list of documents the command accepts. Missing: definitions that are not Regular (conditions of C11) or not movable to where they are mentioned (C67 shows that the text is then refused or means something else); generated unions; data with arrays or maps in fields the reader drops are an error (Datum.skippable)."
  },
  {
   "property": "C78",
   "status": "partial",
   "theorems": [
    "Verif.Props.eval_never_panics",
    "Verif.Props.eval_reported_partial",
    "Verif.Props.stack_suffices_partial",
    "Verif.Props.eval_reported_flat_partial",
    "Verif.Props.stack_by_length_partial",
    "Verif.Props.stack_linear_partial",
    "Verif.Props.eval_reported_linear_partial",
    "Verif.Props.stack_exhausted",
    "Verif.Props.stack_exhausted_at_once",
    "Verif.Props.stack_exhausted_by_names",
    "Verif.Props.memory_asked"
   ],
   "note": "No panic leaves Eval: proved for all schemas, readers, targets and inputs. For writers without records that contain themselves a stack of 3k+1 activations (k the nesting of the schema) suffices for every input (stack_suffices_partial); for records that contain themselves, but not by record fields alone, a stack linear in the length of the input (stack_linear_partial). Missing: no constant stack suffices for records that contain themselves (stack_exhausted), none at all for those that do so by record fields alone (stack_exhausted_at_once) nor for different records of one Go name (stack_exhausted_by_names), and memory is asked for before the items are there (memory_asked)."
  },
  {
   "property": "C79",
   "status": "partial",
   "theorems": [
    "Verif.Props.new_any_order_partial",
    "Verif.Props.set_default_any_order_partial",
    "Verif.Props.clear_without_aliases",
    "Verif.Props.clear_of_avro",
    "Verif.Props.order_matters"
   ],
   "note": "All definitions and orders, for defaults in which no object names one field twice; without aliases of fields that is always so (clear_without_aliases), and for defaults that Avro allows (clear_of_avro). Missing: an object that names a field by its name and an alias, for which the claim is false (order_matters). The text of the generated code is not compared."
  },
  {
   "property": "C80",
   "status": "partial",
   "theorems": [
    "Verif.Props.decoded_own_partial",
    "Verif.Props.decoded_kept_partial",
    "Verif.Props.decoded_disjoint_partial",
    "Verif.Props.decoded_shows_partial",
    "Verif.Props.decoded_stays_partial",
    "Verif.Props.decode_possible",
    "Verif.Props.default_changed_by_caller",
    "Verif.Props.default_shared_within"
   ],
   "note": "All histories, if all defaults are null, booleans, numbers and strings; for all schemas, histories in which the program does not write to the objects the schema keeps defaults in. Missing: defaults that are arrays or objects, which results share with the schema and each other (default_changed_by_caller, default_shared_within). Concurrent use is C100."
  },
  {
   "property": "C81",
   "status": "proved",
   "theorems": [
    "Verif.Props.generic_ends",
    "Verif.Props.generic_fails_alike",
    "Verif.Props.generic_reads_as_far",
    "Verif.Props.generated_reads_as_far",
    "Verif.Props.generic_root_unchecked"
   ],
   "note": "For regular schemas and inputs that fit into memory. Where generated code returns a value the codec may panic (C37). generic_root_unchecked: roots that do not match, for which there is no generated code, are not refused."
  },
  {
   "property": "C82",
   "status": "partial",
   "theorems": [
    "Verif.Props.generic_truncated",
    "Verif.Props.generic_bad_union_index",
    "Verif.Props.generic_bad_index_partial",
    "Verif.Props.generic_no_lookahead_partial"
   ],
   "note": "As for generated code (C17, C18, C20): the index of an enum that is skipped is not checked, and a Boolean at the end of the input of a ByteReader is read as false."
  },
  {
   "property": "C83",
   "status": "partial",
   "theorems": [
    "Verif.Props.accepted_iff",
    "Verif.Props.generic_accepted_iff",
    "Verif.Props.strict_is_loose",
    "Verif.Props.loose_unambiguous",
    "Verif.Props.accepted_is_datum_partial",
    "Verif.Props.overlong_accepted",
    "Verif.Props.int_overflow_accepted",
    "Verif.Props.other_bool_accepted",
    "Verif.Props.block_size_unchecked"
   ],
   "note": "accepted_iff says exactly which inputs are accepted: those of Spec/Loose. Does not hold as stated: over-long and too large integers, other octets for Booleans and wrong block sizes are accepted. The datum read has a proper encoding (for the schema read by itself: indices of enums that are skipped are not checked). Booleans at the very end of a ByteReader are excluded (BoolSafe, see C17)."
  },
  {
   "property": "C84",
   "status": "partial",
   "theorems": [
    "Verif.Props.decoded_hasTy",
    "Verif.Props.reencoded_partial",
    "Verif.Props.defaults_typed",
    "Verif.Props.root_null_not_restored"
   ],
   "note": "Missing: null at the root, where the function returns a union without a member (root_null_not_restored); and defaults that C69 does not cover. L is the size of the largest collection in the value."
  },
  {
   "property": "C85",
   "status": "proved",
   "theorems": [
    "Verif.Props.stopped_unchanged",
    "Verif.Props.finished_writes",
    "Verif.Props.finished_complete",
    "Verif.Props.output_unique",
    "Verif.Props.any_moment",
    "Verif.Props.order_irrelevant",
    "Verif.Props.rerun_repairs",
    "Verif.Props.can_finish",
    "Verif.Props.half_written",
    "Verif.Props.missing_document_ignored"
   ],
   "note": "os.WriteFile is modelled as truncating and writing a beginning of the contents if it fails or the process is killed. Two counterexamples to what a user might expect beyond the statement: a failed run leaves some files (half_written), and a path without a match is not an error (missing_document_ignored)."
  },
  {
   "property": "C86",
   "status": "proved",
   "theorems": [
    "Verif.Props.written_inside"
   ],
   "note": "Symbolic links are not modelled."
  },
  {
   "property": "C87",
   "status": "proved",
   "theorems": [
    "Verif.Props.header_is_comment",
    "Verif.Props.header_names",
    "Verif.Props.header_comments"
   ],
   "note": "header_comments: as Go reads the text handed to gofmt, it is the package clause and the text of the template; names of files as on Unix and without NUL and byte order mark, a package name that is a Go identifier."
  },
  {
   "property": "C88",
   "status": "partial",
   "theorems": [
    "Verif.Props.documents_are_a_set",
    "Verif.Props.package_of_a_set_partial",
    "Verif.Props.order_decides_package"
   ],
   "note": "The files are the same if no two of them have one name; without that the order decides (order_decides_package)."
  },
  {
   "property": "C89",
   "status": "proved",
   "theorems": [
    "Verif.Props.flag_names",
    "Verif.Props.full_name_parts",
    "Verif.Props.short_name_parts",
    "Verif.Props.plain_name_parts"
   ],
   "note": ""
  },
  {
   "property": "C90",
   "status": "partial",
   "theorems": [
    "Verif.Props.struct_declaration_partial",
    "Verif.Props.documentation_ignored_partial",
    "Verif.Props.union_declaration",
    "Verif.Props.tag_injects",
    "Verif.Props.doc_refused"
   ],
   "note": "For names that Avro allows (the program does not check), tags without backquotes and carriage returns, documentation without NUL and byte order marks; without that it does not hold (tag_injects, doc_refused). The tokens of declarations are compared, methods are not."
  },
  {
   "property": "C91",
   "status": "partial",
   "theorems": [
    "Verif.Props.fingerprint_constant",
    "Verif.Props.schema_constant",
    "Verif.Props.union_schema_constant",
    "Verif.Props.schemaName_constant",
    "Verif.Props.json_key_constant",
    "Verif.Props.union_key_constant_partial",
    "Verif.Props.union_constants",
    "Verif.Props.enum_constants",
    "Verif.Props.enum_strings",
    "Verif.Props.enum_values",
    "Verif.Props.fixed_declaration",
    "Verif.Props.fingerprint_method_text",
    "Verif.Props.union_key_injects"
   ],
   "note": "Missing: keys of union members with characters that have to be escaped, for which it does not hold (union_key_injects)."
  },
  {
   "property": "C92",
   "status": "partial",
   "theorems": [
    "Verif.Props.fresh_values",
    "Verif.Props.fresh_encodable_partial"
   ],
   "note": "fresh_values holds of every constructor that returns. Missing for encoding: constructors that call themselves without end, and defaults that C69 does not cover."
  },
  {
   "property": "C93",
   "status": "partial",
   "theorems": [
    "Verif.Props.file_read",
    "Verif.Props.file_roundtrip_partial",
    "Verif.Props.file_exchange_partial",
    "Verif.Props.generated_file_roundtrip_partial"
   ],
   "note": "json.Marshal and json.Unmarshal are parameters with Unmarshal (Marshal j) = j. Missing: documents that C77 leaves out (definitions that are not Regular or not movable); blocks of more than 2147483647 bytes (C39); codecs the reader does not know; io.EOF is shown for records that have at least one byte (C40); a record that resolution refuses is left out (it ends in an error, C94)."
  },
  {
   "property": "C94",
   "status": "partial",
   "theorems": [
    "Verif.Props.document_fingerprint",
    "Verif.Props.message_exchange_partial",
    "Verif.Props.message_roundtrip_partial"
   ],
   "note": "Missing: documents that C77 leaves out; readers that give fewer bytes than asked for inside the header (C49 shows that they are refused)."
  },
  {
   "property": "C95",
   "status": "partial",
   "theorems": [
    "Verif.Props.goView_twin",
    "Verif.Props.copied_counted",
    "Verif.Props.document_generic_partial"
   ],
   "note": "Missing: documents that C77 leaves out; values with null inside arrays or maps (the generic codec panics, C37)."
  },
  {
   "property": "C96",
   "status": "partial",
   "theorems": [
    "Verif.Props.serializer_text",
    "Verif.Props.serialize_text",
    "Verif.Props.serializer_runs",
    "Verif.Props.serialize_runs",
    "Verif.Props.serialize_writes_encoding",
    "Verif.Props.package_has",
    "Verif.Props.within_closed",
    "Verif.Props.code_roundtrip_partial"
   ],
   "note": "The meaning of the Go constructs used is Spec/MiniGo (trusted). Partial only for code_roundtrip_partial, which has the conditions of C77; serializers themselves are covered for all schemas whose names Avro allows, in packages where no name is declared twice (C59 has cases where files are lost)."
  },
  {
   "property": "C97",
   "status": "proved",
   "theorems": [
    "Verif.Props.returns_new_objects",
    "Verif.Props.memory_outcome",
    "Verif.Props.memory_returns_iff",
    "Verif.Props.held_values_stay",
    "Verif.Props.memory_run"
   ],
   "note": "Over an explicit memory in which targets are pointers. What constructors put into fields is not modelled; a default map counts as made when it is filled. Histories are those of Holding: calls one after the other and changes confined to a value returned."
  },
  {
   "property": "C98",
   "status": "proved",
   "theorems": [
    "Verif.Props.concurrent_value",
    "Verif.Props.concurrent_error",
    "Verif.Props.concurrent_apart",
    "Verif.Props.concurrent_returns",
    "Verif.Props.concurrent_fails",
    "Verif.Props.concurrent_ends",
    "Verif.Props.alone_iff",
    "Verif.Props.running_ok"
   ],
   "note": "Each method call of vm.Eval is one step; Go's memory model is not modelled, but no object is touched by two calls. Each call has its own reader; schemas are compiled before the first step."
  },
  {
   "property": "C99",
   "status": "partial",
   "theorems": [
    "Verif.Props.methods_text",
    "Verif.Props.wrapper_declaration",
    "Verif.Props.null_text",
    "Verif.Props.boolean_text",
    "Verif.Props.int_text",
    "Verif.Props.long_text",
    "Verif.Props.float_text",
    "Verif.Props.double_text",
    "Verif.Props.string_text",
    "Verif.Props.bytesWrapper_text",
    "Verif.Props.record_text",
    "Verif.Props.methods_match",
    "Verif.Props.methods_decode",
    "Verif.Props.methods_return",
    "Verif.Props.methods_outcome",
    "Verif.Props.programs_roundtrip_partial"
   ],
   "note": "The meaning of the Go constructs used is Spec/GoTarget (trusted). Missing: constructors and SetDefault of records are not programs over memory here but do what Gen/Memory and Gen/Defaults say (C101 has them as statements over values); null at the root in the round trip. The text of the methods is compared with the programs token by token (methods_text, and the theorems ending in _text for v10/vm/types and templates/bytes.go); Deserialize is C103."
  }
 ]
}