# Axioms

What `#print axioms` reports for each theorem named in MANIFEST.json.
`propext`, `Classical.choice` and `Quot.sound` are the axioms of Lean itself; no others are used.

| property | theorem | axioms |
|---|---|---|
| C01 | `Verif.Props.long_roundtrip` | propext, Classical.choice, Quot.sound |
| C02 | `Verif.Props.int_roundtrip` | propext, Classical.choice, Quot.sound |
| C03 | `Verif.Props.long_wire_form` | propext, Classical.choice, Quot.sound |
| C03 | `Verif.Props.int_wire_form` | propext, Classical.choice, Quot.sound |
| C03 | `Verif.Props.varint_value` | propext, Quot.sound |
| C03 | `Verif.Props.varint_shape` | propext, Classical.choice, Quot.sound |
| C03 | `Verif.Props.long_length` | propext, Classical.choice, Quot.sound |
| C03 | `Verif.Props.int_length` | propext, Classical.choice, Quot.sound |
| C04 | `Verif.Props.double_roundtrip` | propext, Classical.choice, Quot.sound |
| C04 | `Verif.Props.float_roundtrip` | propext, Classical.choice, Quot.sound |
| C04 | `Verif.Props.double_wire_form` | propext, Classical.choice, Quot.sound |
| C04 | `Verif.Props.float_wire_form` | propext, Classical.choice, Quot.sound |
| C05 | `Verif.Props.bytes_roundtrip` | propext, Classical.choice, Quot.sound |
| C05 | `Verif.Props.string_roundtrip` | propext, Classical.choice, Quot.sound |
| C05 | `Verif.Props.length_refused` | propext, Classical.choice, Quot.sound |
| C05 | `Verif.Props.bytes_length_in_range` | propext, Quot.sound |
| C06 | `Verif.Props.bool_roundtrip` | propext, Classical.choice, Quot.sound |
| C06 | `Verif.Props.bool_bytes` | propext |
| C06 | `Verif.Props.bool_wire_form` | none |
| C07 | `Verif.Props.int_read_as_long` | propext, Classical.choice, Quot.sound |
| C08 | `Verif.Props.same_bytes_same_outcome` | propext, Classical.choice, Quot.sound |
| C08 | `Verif.Props.plain_then_byte_reader_partial` | propext, Classical.choice, Quot.sound |
| C08 | `Verif.Props.byte_then_plain_reader_partial` | propext, Classical.choice, Quot.sound |
| C08 | `Verif.Props.any_reader_same_outcome` | propext, Classical.choice, Quot.sound |
| C08 | `Verif.Props.encoding_any_reader` | propext, Classical.choice, Quot.sound |
| C08 | `Verif.Props.primitives_on_any_reader` | propext, Quot.sound |
| C09 | `Verif.Props.writers_agree` | propext, Quot.sound |
| C09 | `Verif.Props.same_bytes_any_writer` | propext, Quot.sound |
| C09 | `Verif.Props.failing_writer` | propext, Quot.sound |
| C09 | `Verif.Props.only_writer_fails` | propext, Classical.choice, Quot.sound |
| C09 | `Verif.Props.full_writer` | propext, Classical.choice, Quot.sound |
| C10 | `Verif.Props.truncated_error` | propext |
| C10 | `Verif.Props.int_truncated` | propext, Classical.choice, Quot.sound |
| C10 | `Verif.Props.long_truncated` | propext, Classical.choice, Quot.sound |
| C10 | `Verif.Props.float_truncated` | propext, Classical.choice, Quot.sound |
| C10 | `Verif.Props.double_truncated` | propext, Classical.choice, Quot.sound |
| C10 | `Verif.Props.bytes_truncated` | propext, Classical.choice, Quot.sound |
| C10 | `Verif.Props.string_truncated` | propext, Classical.choice, Quot.sound |
| C10 | `Verif.Props.bool_truncated_partial` | propext, Classical.choice, Quot.sound |
| C10 | `Verif.Props.bool_truncated_accepted` | none |
| C100 | `Verif.Props.concurrent_generic_value` | propext, Classical.choice, Quot.sound |
| C100 | `Verif.Props.concurrent_generic_own` | propext, Classical.choice, Quot.sound |
| C100 | `Verif.Props.concurrent_generic_panics` | propext, Classical.choice, Quot.sound |
| C100 | `Verif.Props.concurrent_generic_error` | propext, Classical.choice, Quot.sound |
| C100 | `Verif.Props.concurrent_generic_apart` | propext, Classical.choice, Quot.sound |
| C100 | `Verif.Props.concurrent_generic_spares` | propext, Classical.choice, Quot.sound |
| C100 | `Verif.Props.concurrent_generic_returns` | propext, Classical.choice, Quot.sound |
| C100 | `Verif.Props.concurrent_generic_fails` | propext, Classical.choice, Quot.sound |
| C100 | `Verif.Props.concurrent_generic_ends` | propext, Classical.choice, Quot.sound |
| C100 | `Verif.Props.parsed_defaults` | propext, Classical.choice, Quot.sound |
| C100 | `Verif.Props.grunning_ok` | propext, Classical.choice, Quot.sound |
| C101 | `Verif.Props.default_code` | propext, Classical.choice, Quot.sound |
| C101 | `Verif.Props.default_number` | propext, Classical.choice, Quot.sound |
| C101 | `Verif.Props.code_default_partial` | propext, Classical.choice, Quot.sound |
| C102 | `Verif.Props.record_marshal_code` | propext, Classical.choice, Quot.sound |
| C102 | `Verif.Props.record_unmarshal_code` | propext, Classical.choice, Quot.sound |
| C102 | `Verif.Props.union_marshal_code` | propext, Classical.choice, Quot.sound |
| C102 | `Verif.Props.union_unmarshal_code` | propext, Classical.choice, Quot.sound |
| C102 | `Verif.Props.enum_json_code` | propext, Classical.choice, Quot.sound |
| C102 | `Verif.Props.fixed_json_code` | propext, Classical.choice, Quot.sound |
| C102 | `Verif.Props.bytes_json_code` | propext, Classical.choice, Quot.sound |
| C103 | `Verif.Props.record_decode_text` | propext, Classical.choice, Quot.sound |
| C103 | `Verif.Props.union_decode_text` | propext, Classical.choice, Quot.sound |
| C103 | `Verif.Props.container_text` | propext, Classical.choice, Quot.sound |
| C103 | `Verif.Props.deserialize_call` | propext, Classical.choice, Quot.sound |
| C103 | `Verif.Props.deserialize_from_call` | propext, Classical.choice, Quot.sound |
| C103 | `Verif.Props.union_deserialize_call` | propext, Classical.choice, Quot.sound |
| C103 | `Verif.Props.union_deserialize_from_call` | propext, Classical.choice, Quot.sound |
| C103 | `Verif.Props.bad_schema_call` | propext, Classical.choice, Quot.sound |
| C103 | `Verif.Props.new_writer_call` | propext, Classical.choice, Quot.sound |
| C103 | `Verif.Props.new_reader_call` | propext, Classical.choice, Quot.sound |
| C103 | `Verif.Props.read_call` | propext, Classical.choice, Quot.sound |
| C104 | `Verif.Props.file_declares_partial` | propext, Classical.choice, Quot.sound |
| C104 | `Verif.Props.union_constructor_text` | propext, Classical.choice, Quot.sound |
| C104 | `Verif.Props.package_names_partial` | propext, Classical.choice, Quot.sound |
| C104 | `Verif.Props.suffix_clash` | propext, Classical.choice, Quot.sound |
| C104 | `Verif.Props.reader_clash` | propext, Classical.choice, Quot.sound |
| C104 | `Verif.Props.constructor_clash` | propext, Classical.choice, Quot.sound |
| C104 | `Verif.Props.constant_clash` | propext, Classical.choice, Quot.sound |
| C105 | `Verif.Props.imports_used_partial` | propext, Classical.choice, Quot.sound |
| C106 | `Verif.Props.record_selectors` | propext, Classical.choice, Quot.sound |
| C106 | `Verif.Props.union_selectors` | propext, Classical.choice, Quot.sound |
| C106 | `Verif.Props.record_selectors_distinct_partial` | propext, Classical.choice, Quot.sound |
| C106 | `Verif.Props.union_selectors_distinct_partial` | propext, Classical.choice, Quot.sound |
| C106 | `Verif.Props.allowed_union_partial` | propext, Classical.choice, Quot.sound |
| C106 | `Verif.Props.allowed_record_partial` | propext, Classical.choice, Quot.sound |
| C106 | `Verif.Props.record_method_clash` | propext, Classical.choice, Quot.sound |
| C106 | `Verif.Props.record_field_clash` | propext, Classical.choice, Quot.sound |
| C106 | `Verif.Props.union_primitive_clash` | propext, Classical.choice, Quot.sound |
| C106 | `Verif.Props.union_member_clash` | propext, Classical.choice, Quot.sound |
| C106 | `Verif.Props.union_method_clash` | propext, Classical.choice, Quot.sound |
| C11 | `Verif.Props.roundtrip_partial` | propext, Classical.choice, Quot.sound |
| C11 | `Verif.Props.root_null_not_restored` | propext, Classical.choice, Quot.sound |
| C12 | `Verif.Props.stream_partial` | propext, Classical.choice, Quot.sound |
| C12 | `Verif.Props.self_delimiting` | propext, Classical.choice, Quot.sound |
| C13 | `Verif.Props.unambiguous` | propext, Classical.choice, Quot.sound |
| C14 | `Verif.Props.any_layout` | propext, Classical.choice, Quot.sound |
| C15 | `Verif.Props.map_order_invisible` | propext, Classical.choice, Quot.sound |
| C16 | `Verif.Props.last_key_wins` | propext, Classical.choice, Quot.sound |
| C17 | `Verif.Props.prefix_unreadable` | propext, Classical.choice, Quot.sound |
| C17 | `Verif.Props.truncated` | propext, Classical.choice, Quot.sound |
| C17 | `Verif.Props.truncated_value` | propext, Classical.choice, Quot.sound |
| C17 | `Verif.Props.truncated_any_reader` | propext, Classical.choice, Quot.sound |
| C17 | `Verif.Props.bool_at_eof` | propext, Classical.choice, Quot.sound |
| C17 | `Verif.Props.bool_at_eof_plain` | propext, Classical.choice, Quot.sound |
| C18 | `Verif.Props.bad_unread` | propext, Classical.choice, Quot.sound |
| C18 | `Verif.Props.bad_union_index` | propext, Classical.choice, Quot.sound |
| C18 | `Verif.Props.bad_index_partial` | propext, Classical.choice, Quot.sound |
| C18 | `Verif.Props.skipped_enum_unchecked` | propext, Classical.choice, Quot.sound |
| C19 | `Verif.Props.decoding_ends` | propext, Classical.choice, Quot.sound |
| C19 | `Verif.Props.any_target_ends` | propext, Classical.choice, Quot.sound |
| C20 | `Verif.Props.no_lookahead_partial` | propext, Classical.choice, Quot.sound |
| C20 | `Verif.Props.no_lookahead_any_reader` | propext, Classical.choice, Quot.sound |
| C21 | `Verif.Props.decoding_ends` | propext, Classical.choice, Quot.sound |
| C21 | `Verif.Props.fields_by_name` | propext, Classical.choice, Quot.sound |
| C21 | `Verif.Props.reused_partial` | propext, Classical.choice, Quot.sound |
| C21 | `Verif.Props.reused_record` | propext, Classical.choice, Quot.sound |
| C21 | `Verif.Props.reused_stream` | propext, Classical.choice, Quot.sound |
| C21 | `Verif.Props.defaults_replace` | propext, Classical.choice, Quot.sound |
| C21 | `Verif.Props.defaults_over` | propext, Classical.choice, Quot.sound |
| C21 | `Verif.Props.reused_map_default_merged` | propext, Classical.choice, Quot.sound |
| C21 | `Verif.Props.reused_union_stale` | propext, Classical.choice, Quot.sound |
| C22 | `Verif.Props.resolution_partial` | propext, Classical.choice, Quot.sound |
| C22 | `Verif.Props.resolution_sound` | propext, Classical.choice, Quot.sound |
| C22 | `Verif.Props.resolution_exact` | propext, Classical.choice, Quot.sound |
| C22 | `Verif.Props.dropped_array_fails` | propext, Classical.choice, Quot.sound |
| C23 | `Verif.Props.any_map_order` | propext, Classical.choice, Quot.sound |
| C24 | `Verif.Props.compile_terminates` | propext, Classical.choice, Quot.sound |
| C25 | `Verif.Props.in_range_partial` | propext, Classical.choice, Quot.sound |
| C25 | `Verif.Props.jump_out_of_range` | propext, Classical.choice, Quot.sound |
| C26 | `Verif.Props.same_short_name_confused` | propext, Classical.choice, Quot.sound |
| C26 | `Verif.Props.same_short_name_not_restored` | propext, Classical.choice, Quot.sound |
| C26 | `Verif.Props.fields_by_name` | propext, Classical.choice, Quot.sound |
| C27 | `Verif.Props.two_readers_confused` | propext, Classical.choice, Quot.sound |
| C27 | `Verif.Props.fields_by_name` | propext, Classical.choice, Quot.sound |
| C28 | `Verif.Props.nullable_as_null_fails` | propext, Classical.choice, Quot.sound |
| C28 | `Verif.Props.int_read_as_null` | propext, Classical.choice, Quot.sound |
| C28 | `Verif.Props.nullable_as_nullable_partial` | propext, Classical.choice, Quot.sound |
| C29 | `Verif.Props.promotion` | propext, Classical.choice, Quot.sound |
| C30 | `Verif.Props.fields_by_name` | propext, Classical.choice, Quot.sound |
| C30 | `Verif.Props.other_fields_do_not_matter` | propext, Classical.choice, Quot.sound |
| C31 | `Verif.Props.renamed_field` | propext, Classical.choice, Quot.sound |
| C31 | `Verif.Props.alias_before_name` | propext, Classical.choice, Quot.sound |
| C32 | `Verif.Props.symbols_by_name` | propext, Classical.choice, Quot.sound |
| C33 | `Verif.Props.union_branch` | propext, Classical.choice, Quot.sound |
| C33 | `Verif.Props.union_no_branch` | propext, Classical.choice, Quot.sound |
| C33 | `Verif.Props.union_as_plain` | propext, Classical.choice, Quot.sound |
| C33 | `Verif.Props.plain_into_union` | propext, Classical.choice, Quot.sound |
| C33 | `Verif.Props.plain_no_branch` | propext, Classical.choice, Quot.sound |
| C34 | `Verif.Props.refused_iff` | propext, Classical.choice, Quot.sound |
| C34 | `Verif.Props.incompatible_refused_partial` | propext, Classical.choice, Quot.sound |
| C34 | `Verif.Props.fields_refused` | propext, Classical.choice, Quot.sound |
| C34 | `Verif.Props.root_not_checked` | propext, Classical.choice, Quot.sound |
| C34 | `Verif.Props.union_root_not_checked` | propext, Classical.choice, Quot.sound |
| C35 | `Verif.Props.isReadableBy_table` | propext, Quot.sound |
| C35 | `Verif.Props.isReadableBy_refl` | propext, Quot.sound |
| C35 | `Verif.Props.isReadableBy_empty` | propext |
| C35 | `Verif.Props.isReadableBy_unions` | propext, Quot.sound |
| C36 | `Verif.Props.string_as_bytes` | propext, Classical.choice, Quot.sound |
| C36 | `Verif.Props.bytes_as_string` | propext, Classical.choice, Quot.sound |
| C37 | `Verif.Props.generic_decodes_partial` | propext, Classical.choice, Quot.sound |
| C37 | `Verif.Props.generic_reads_generated_partial` | propext, Classical.choice, Quot.sound |
| C37 | `Verif.Props.generic_panics` | propext, Classical.choice, Quot.sound |
| C37 | `Verif.Props.generic_null_root_panics` | propext, Classical.choice, Quot.sound |
| C37 | `Verif.Props.generic_null_item_panics` | propext, Classical.choice, Quot.sound |
| C37 | `Verif.Props.generic_null_entry_panics` | propext, Classical.choice, Quot.sound |
| C38 | `Verif.Props.generic_reader_types_partial` | propext, Classical.choice, Quot.sound |
| C38 | `Verif.Props.generic_shows` | propext, Classical.choice, Quot.sound |
| C38 | `Verif.Props.generic_promotion_keeps_int32` | propext, Classical.choice, Quot.sound |
| C38 | `Verif.Props.generic_default_is_raw_json` | propext, Classical.choice, Quot.sound |
| C39 | `Verif.Props.container_roundtrip_partial` | propext, Classical.choice, Quot.sound |
| C39 | `Verif.Props.container_read` | propext, Classical.choice, Quot.sound |
| C39 | `Verif.Props.large_block_unreadable` | propext, Classical.choice, Quot.sound |
| C40 | `Verif.Props.written` | propext, Classical.choice, Quot.sound |
| C40 | `Verif.Props.names_of_specification` | propext, Classical.choice, Quot.sound |
| C40 | `Verif.Props.checksum_big_endian` | propext, Quot.sound |
| C41 | `Verif.Props.flush_twice` | propext, Classical.choice, Quot.sound |
| C41 | `Verif.Props.flush_leaves_nothing` | propext, Classical.choice, Quot.sound |
| C41 | `Verif.Props.no_records` | propext, Classical.choice, Quot.sound |
| C41 | `Verif.Props.written` | propext, Classical.choice, Quot.sound |
| C42 | `Verif.Props.cut_file` | propext, Classical.choice, Quot.sound |
| C42 | `Verif.Props.cut_in_block` | propext, Classical.choice, Quot.sound |
| C42 | `Verif.Props.container_beginning` | propext, Classical.choice, Quot.sound |
| C43 | `Verif.Props.foreign_sync_partial` | propext, Classical.choice, Quot.sound |
| C43 | `Verif.Props.magic_not_checked` | propext, Classical.choice, Quot.sound |
| C43 | `Verif.Props.schema_required` | propext, Classical.choice, Quot.sound |
| C44 | `Verif.Props.cut_noticed_partial` | propext, Classical.choice, Quot.sound |
| C44 | `Verif.Props.cut_looks_complete` | propext, Classical.choice, Quot.sound |
| C44 | `Verif.Props.cut_in_block` | propext, Classical.choice, Quot.sound |
| C45 | `Verif.Props.earlier_records_survive_partial` | propext, Classical.choice, Quot.sound |
| C45 | `Verif.Props.failed_record_damages_file` | propext, Classical.choice, Quot.sound |
| C46 | `Verif.Props.written` | propext, Classical.choice, Quot.sound |
| C46 | `Verif.Props.container_beginning` | propext, Classical.choice, Quot.sound |
| C47 | `Verif.Props.reading_stops_partial` | propext, Classical.choice, Quot.sound |
| C47 | `Verif.Props.empty_records_never_end` | propext, Classical.choice, Quot.sound |
| C47 | `Verif.Props.container_read` | propext, Classical.choice, Quot.sound |
| C48 | `Verif.Props.soe_layout` | propext |
| C48 | `Verif.Props.soe_roundtrip` | propext, Quot.sound |
| C48 | `Verif.Props.soe_value` | propext, Classical.choice, Quot.sound |
| C48 | `Verif.Props.soe_marker_checked` | propext, Classical.choice, Quot.sound |
| C48 | `Verif.Props.soe_short_refused` | propext, Classical.choice, Quot.sound |
| C49 | `Verif.Props.soe_split_partial` | propext, Classical.choice, Quot.sound |
| C49 | `Verif.Props.soe_split_header_refused` | propext, Quot.sound |
| C49 | `Verif.Props.soe_eager_reader_refused` | propext, Quot.sound |
| C50 | `Verif.Props.fingerprint_is_crc64` | propext, Classical.choice, Quot.sound |
| C50 | `Verif.Props.fingerprint_length` | propext, Classical.choice, Quot.sound |
| C51 | `Verif.Props.local_change_detected` | propext, Classical.choice, Quot.sound |
| C51 | `Verif.Props.local_change_detected_at` | propext, Classical.choice, Quot.sound |
| C51 | `Verif.Props.nine_bytes_undetected` | propext, Quot.sound |
| C52 | `Verif.Props.canonical_form_exists` | propext, Classical.choice, Quot.sound |
| C52 | `Verif.Props.canonical_same` | propext, Classical.choice, Quot.sound |
| C52 | `Verif.Props.canonical_ignores` | propext, Classical.choice, Quot.sound |
| C53 | `Verif.Props.canonical_decides_partial` | propext, Classical.choice, Quot.sound |
| C53 | `Verif.Props.canonical_equal_data_partial` | propext, Classical.choice, Quot.sound |
| C53 | `Verif.Props.primitive_name_clash` | propext, Classical.choice, Quot.sound |
| C54 | `Verif.Props.name_dotted` | propext, Quot.sound |
| C54 | `Verif.Props.name_plain` | propext, Quot.sound |
| C54 | `Verif.Props.name_cases` | propext |
| C54 | `Verif.Props.name_reparsed` | propext, Quot.sound |
| C54 | `Verif.Props.parsed_name_plain` | propext, Quot.sound |
| C54 | `Verif.Props.definition_named` | propext, Classical.choice, Quot.sound |
| C55 | `Verif.Props.parse_resolved` | propext, Classical.choice, Quot.sound |
| C55 | `Verif.Props.parse_means` | propext, Classical.choice, Quot.sound |
| C55 | `Verif.Props.parse_accepts` | propext, Classical.choice, Quot.sound |
| C55 | `Verif.Props.parse_refuses` | propext, Classical.choice, Quot.sound |
| C55 | `Verif.Props.parse_names` | propext, Classical.choice, Quot.sound |
| C56 | `Verif.Props.registrations_accepted` | propext, Quot.sound |
| C56 | `Verif.Props.registered_found` | propext, Quot.sound |
| C56 | `Verif.Props.name_conflict` | propext, Quot.sound |
| C56 | `Verif.Props.same_again` | propext, Quot.sound |
| C56 | `Verif.Props.alias_conflict` | propext, Quot.sound |
| C56 | `Verif.Props.names_stay` | propext, Quot.sound |
| C57 | `Verif.Props.byte_string_roundtrip` | propext, Quot.sound |
| C57 | `Verif.Props.byte_string_injective` | propext, Quot.sound |
| C57 | `Verif.Props.decoded_length` | propext |
| C57 | `Verif.Props.decoded_faithful` | propext, Quot.sound |
| C57 | `Verif.Props.large_code_points_lost` | none |
| C57 | `Verif.Props.fixed_json_roundtrip` | propext, Quot.sound |
| C57 | `Verif.Props.fixed_json_length_not_checked` | propext, Classical.choice, Quot.sound |
| C58 | `Verif.Props.field_name_exported_partial` | propext, Classical.choice, Quot.sound |
| C58 | `Verif.Props.underscore_field` | propext, Classical.choice, Quot.sound |
| C58 | `Verif.Props.digit_field` | propext, Classical.choice, Quot.sound |
| C58 | `Verif.Props.method_field` | propext, Classical.choice, Quot.sound |
| C58 | `Verif.Props.field_names_distinct_partial` | propext, Classical.choice, Quot.sound |
| C58 | `Verif.Props.fields_clash` | propext, Classical.choice, Quot.sound |
| C58 | `Verif.Props.type_name_exported_partial` | propext, Classical.choice, Quot.sound |
| C58 | `Verif.Props.symbol_exported` | propext, Classical.choice, Quot.sound |
| C58 | `Verif.Props.symbol_names_distinct_partial` | propext, Classical.choice, Quot.sound |
| C58 | `Verif.Props.symbols_clash` | propext, Classical.choice, Quot.sound |
| C59 | `Verif.Props.definitions_written_partial` | propext, Classical.choice, Quot.sound |
| C59 | `Verif.Props.file_name_injective_partial` | propext, Classical.choice, Quot.sound |
| C59 | `Verif.Props.namespace_lost` | propext, Classical.choice, Quot.sound |
| C59 | `Verif.Props.snake_lost` | propext, Classical.choice, Quot.sound |
| C59 | `Verif.Props.namespaced_lost` | propext, Classical.choice, Quot.sound |
| C59 | `Verif.Props.container_lost` | propext, Classical.choice, Quot.sound |
| C59 | `Verif.Props.array_lost` | propext, Classical.choice, Quot.sound |
| C59 | `Verif.Props.union_lost` | propext, Classical.choice, Quot.sound |
| C59 | `Verif.Props.short_union_lost` | propext, Classical.choice, Quot.sound |
| C59 | `Verif.Props.test_file` | propext, Classical.choice, Quot.sound |
| C60 | `Verif.Props.same_bytes_same_outcome` | propext, Classical.choice, Quot.sound |
| C60 | `Verif.Props.any_map_order` | propext, Classical.choice, Quot.sound |
| C60 | `Verif.Props.decoding_ends` | propext, Classical.choice, Quot.sound |
| C60 | `Verif.Props.reused_partial` | propext, Classical.choice, Quot.sound |
| C60 | `Verif.Props.reused_record` | propext, Classical.choice, Quot.sound |
| C60 | `Verif.Props.reused_stream` | propext, Classical.choice, Quot.sound |
| C60 | `Verif.Props.reused_map_default_merged` | propext, Classical.choice, Quot.sound |
| C60 | `Verif.Props.reused_union_stale` | propext, Classical.choice, Quot.sound |
| C61 | `Verif.Props.failing_destination` | propext, Classical.choice, Quot.sound |
| C61 | `Verif.Props.cut_file` | propext, Classical.choice, Quot.sound |
| C62 | `Verif.Props.checksum_not_checked` | propext, Classical.choice, Quot.sound |
| C63 | `Verif.Props.container_roundtrip_partial` | propext, Classical.choice, Quot.sound |
| C63 | `Verif.Props.unknown_codec_written` | propext, Classical.choice, Quot.sound |
| C63 | `Verif.Props.codec_error_not_sync` | none |
| C63 | `Verif.Props.unknown_codec_unreadable` | propext, Classical.choice, Quot.sound |
| C63 | `Verif.Props.large_block_unreadable` | propext, Classical.choice, Quot.sound |
| C64 | `Verif.Props.aliases_placed_partial` | propext, Classical.choice, Quot.sound |
| C64 | `Verif.Props.enum_alias_elsewhere` | propext, Classical.choice, Quot.sound |
| C64 | `Verif.Props.empty_namespace_ignored` | propext, Classical.choice, Quot.sound |
| C65 | `Verif.Props.files_in_any_order` | propext, Classical.choice, Quot.sound |
| C65 | `Verif.Props.command_accepts` | propext, Classical.choice, Quot.sound |
| C65 | `Verif.Props.command_means` | propext, Classical.choice, Quot.sound |
| C66 | `Verif.Props.canonical_is_pcf_partial` | propext, Classical.choice, Quot.sound |
| C66 | `Verif.Props.empty_fields_dropped` | propext, Classical.choice, Quot.sound |
| C67 | `Verif.Props.schema_written` | propext, Classical.choice, Quot.sound |
| C67 | `Verif.Props.schema_reparsed_partial` | propext, Classical.choice, Quot.sound |
| C67 | `Verif.Props.union_schema_reparsed_partial` | propext, Classical.choice, Quot.sound |
| C67 | `Verif.Props.schema_reparsed_one_namespace` | propext, Classical.choice, Quot.sound |
| C67 | `Verif.Props.schema_reparsed_spelled_out` | propext, Classical.choice, Quot.sound |
| C67 | `Verif.Props.schema_refused` | propext, Classical.choice, Quot.sound |
| C67 | `Verif.Props.schema_renames` | propext, Classical.choice, Quot.sound |
| C67 | `Verif.Props.union_schema_refused` | propext, Classical.choice, Quot.sound |
| C67 | `Verif.Props.schema_changes_type` | propext, Classical.choice, Quot.sound |
| C68 | `Verif.Props.same_encodings` | propext, Quot.sound |
| C68 | `Verif.Props.same_resolution` | propext, Classical.choice, Quot.sound |
| C68 | `Verif.Props.same_readability` | propext, Quot.sound |
| C68 | `Verif.Props.schema_same_data` | propext, Classical.choice, Quot.sound |
| C68 | `Verif.Props.own_schema_reads` | propext, Classical.choice, Quot.sound |
| C69 | `Verif.Props.new_default_partial` | propext, Classical.choice, Quot.sound |
| C69 | `Verif.Props.set_default_partial` | propext, Classical.choice, Quot.sound |
| C69 | `Verif.Props.set_default_any_partial` | propext, Classical.choice, Quot.sound |
| C69 | `Verif.Props.missing_field_default_partial` | propext, Classical.choice, Quot.sound |
| C69 | `Verif.Props.default_unique` | propext, Classical.choice, Quot.sound |
| C69 | `Verif.Props.long_default_inexact` | propext, Classical.choice, Quot.sound |
| C69 | `Verif.Props.float_default_inexact` | propext, Classical.choice, Quot.sound |
| C69 | `Verif.Props.fixed_default_wrong` | propext, Classical.choice, Quot.sound |
| C69 | `Verif.Props.map_of_fixed_default_refused` | propext, Classical.choice, Quot.sound |
| C69 | `Verif.Props.map_of_union_default_refused` | propext, Classical.choice, Quot.sound |
| C69 | `Verif.Props.map_of_map_default_panics` | propext, Classical.choice, Quot.sound |
| C69 | `Verif.Props.map_of_record_default_lost` | propext, Classical.choice, Quot.sound |
| C69 | `Verif.Props.nested_map_default_merged` | propext, Classical.choice, Quot.sound |
| C69 | `Verif.Props.recursive_default_diverges` | propext, Classical.choice, Quot.sound |
| C70 | `Verif.Props.marshal_avro_partial` | propext, Classical.choice, Quot.sound |
| C70 | `Verif.Props.marshalled_finite` | propext, Classical.choice, Quot.sound |
| C70 | `Verif.Props.nan_refused` | propext, Classical.choice, Quot.sound |
| C70 | `Verif.Props.bad_text_changed` | propext, Classical.choice, Quot.sound |
| C70 | `Verif.Props.nil_slice_null` | propext, Classical.choice, Quot.sound |
| C70 | `Verif.Props.nil_map_null` | propext, Classical.choice, Quot.sound |
| C70 | `Verif.Props.unknown_symbol_written` | propext, Classical.choice, Quot.sound |
| C70 | `Verif.Props.deep_refused` | propext, Classical.choice, Quot.sound |
| C71 | `Verif.Props.unmarshal_avro` | propext, Classical.choice, Quot.sound |
| C71 | `Verif.Props.new_blank` | propext |
| C71 | `Verif.Props.json_unique` | propext, Classical.choice, Quot.sound |
| C71 | `Verif.Props.map_entries_stay` | propext, Classical.choice, Quot.sound |
| C72 | `Verif.Props.unmarshal_extended_partial` | propext, Classical.choice, Quot.sound |
| C73 | `Verif.Props.json_round_trip_partial` | propext, Classical.choice, Quot.sound |
| C73 | `Verif.Props.marshal_injective` | propext, Classical.choice, Quot.sound |
| C73 | `Verif.Props.two_arrays_confused` | propext, Classical.choice, Quot.sound |
| C74 | `Verif.Props.unmarshal_wrong_refused_partial` | propext, Classical.choice, Quot.sound |
| C74 | `Verif.Props.wrong_is_wrong` | propext, Classical.choice, Quot.sound |
| C74 | `Verif.Props.null_int_accepted` | propext, Classical.choice, Quot.sound |
| C74 | `Verif.Props.bytes_char_cut` | propext, Classical.choice, Quot.sound |
| C74 | `Verif.Props.fixed_short_accepted` | propext, Classical.choice, Quot.sound |
| C74 | `Verif.Props.twice_accepted` | propext, Classical.choice, Quot.sound |
| C75 | `Verif.Props.lax_same_program` | propext, Classical.choice, Quot.sound |
| C75 | `Verif.Props.lax_same_outcome` | propext, Classical.choice, Quot.sound |
| C75 | `Verif.Props.lax_root_renamed_partial` | propext, Classical.choice, Quot.sound |
| C75 | `Verif.Props.lax_resolution_partial` | propext, Classical.choice, Quot.sound |
| C75 | `Verif.Props.lax_error_reason` | propext, Classical.choice, Quot.sound |
| C75 | `Verif.Props.lax_recursive_fails` | propext, Classical.choice, Quot.sound |
| C75 | `Verif.Props.lax_field_refused` | propext, Classical.choice, Quot.sound |
| C75 | `Verif.Props.lax_fixed_cut` | propext, Classical.choice, Quot.sound |
| C76 | `Verif.Props.null_is_empty` | propext, Quot.sound |
| C76 | `Verif.Props.null_read_as_null` | propext, Classical.choice, Quot.sound |
| C76 | `Verif.Props.null_read_as_optional` | propext, Classical.choice, Quot.sound |
| C77 | `Verif.Props.command_names` | propext, Classical.choice, Quot.sound |
| C77 | `Verif.Props.command_closed` | propext, Classical.choice, Quot.sound |
| C77 | `Verif.Props.document_wellFormed` | propext, Classical.choice, Quot.sound |
| C77 | `Verif.Props.document_copy` | propext, Classical.choice, Quot.sound |
| C77 | `Verif.Props.document_roundtrip_partial` | propext, Classical.choice, Quot.sound |
| C77 | `Verif.Props.document_written` | propext, Classical.choice, Quot.sound |
| C77 | `Verif.Props.document_evolution_partial` | propext, Classical.choice, Quot.sound |
| C77 | `Verif.Props.generated_roundtrip_partial` | propext, Classical.choice, Quot.sound |
| C77 | `Verif.Props.generated_exchange_partial` | propext, Classical.choice, Quot.sound |
| C78 | `Verif.Props.eval_never_panics` | propext, Classical.choice, Quot.sound |
| C78 | `Verif.Props.eval_reported_partial` | propext, Classical.choice, Quot.sound |
| C78 | `Verif.Props.stack_suffices_partial` | propext, Classical.choice, Quot.sound |
| C78 | `Verif.Props.eval_reported_flat_partial` | propext, Classical.choice, Quot.sound |
| C78 | `Verif.Props.stack_by_length_partial` | propext, Classical.choice, Quot.sound |
| C78 | `Verif.Props.stack_linear_partial` | propext, Classical.choice, Quot.sound |
| C78 | `Verif.Props.eval_reported_linear_partial` | propext, Classical.choice, Quot.sound |
| C78 | `Verif.Props.stack_exhausted` | propext, Classical.choice, Quot.sound |
| C78 | `Verif.Props.stack_exhausted_at_once` | propext, Classical.choice, Quot.sound |
| C78 | `Verif.Props.stack_exhausted_by_names` | propext, Classical.choice, Quot.sound |
| C78 | `Verif.Props.memory_asked` | propext, Classical.choice, Quot.sound |
| C79 | `Verif.Props.new_any_order_partial` | propext, Classical.choice, Quot.sound |
| C79 | `Verif.Props.set_default_any_order_partial` | propext, Classical.choice, Quot.sound |
| C79 | `Verif.Props.clear_without_aliases` | propext, Quot.sound |
| C79 | `Verif.Props.clear_of_avro` | propext, Quot.sound |
| C79 | `Verif.Props.order_matters` | propext, Classical.choice, Quot.sound |
| C80 | `Verif.Props.decoded_own_partial` | propext, Classical.choice, Quot.sound |
| C80 | `Verif.Props.decoded_kept_partial` | propext, Classical.choice, Quot.sound |
| C80 | `Verif.Props.decoded_disjoint_partial` | propext, Classical.choice, Quot.sound |
| C80 | `Verif.Props.decoded_shows_partial` | propext, Classical.choice, Quot.sound |
| C80 | `Verif.Props.decoded_stays_partial` | propext, Classical.choice, Quot.sound |
| C80 | `Verif.Props.decode_possible` | propext, Classical.choice, Quot.sound |
| C80 | `Verif.Props.default_changed_by_caller` | propext, Classical.choice, Quot.sound |
| C80 | `Verif.Props.default_shared_within` | propext, Classical.choice, Quot.sound |
| C81 | `Verif.Props.generic_ends` | propext, Classical.choice, Quot.sound |
| C81 | `Verif.Props.generic_fails_alike` | propext, Classical.choice, Quot.sound |
| C81 | `Verif.Props.generic_reads_as_far` | propext, Classical.choice, Quot.sound |
| C81 | `Verif.Props.generated_reads_as_far` | propext, Classical.choice, Quot.sound |
| C81 | `Verif.Props.generic_root_unchecked` | propext, Classical.choice, Quot.sound |
| C82 | `Verif.Props.generic_truncated` | propext, Classical.choice, Quot.sound |
| C82 | `Verif.Props.generic_bad_union_index` | propext, Classical.choice, Quot.sound |
| C82 | `Verif.Props.generic_bad_index_partial` | propext, Classical.choice, Quot.sound |
| C82 | `Verif.Props.generic_no_lookahead_partial` | propext, Classical.choice, Quot.sound |
| C83 | `Verif.Props.accepted_iff` | propext, Classical.choice, Quot.sound |
| C83 | `Verif.Props.generic_accepted_iff` | propext, Classical.choice, Quot.sound |
| C83 | `Verif.Props.strict_is_loose` | propext, Classical.choice, Quot.sound |
| C83 | `Verif.Props.loose_unambiguous` | propext, Classical.choice, Quot.sound |
| C83 | `Verif.Props.accepted_is_datum_partial` | propext, Classical.choice, Quot.sound |
| C83 | `Verif.Props.overlong_accepted` | propext, Classical.choice, Quot.sound |
| C83 | `Verif.Props.int_overflow_accepted` | propext, Classical.choice, Quot.sound |
| C83 | `Verif.Props.other_bool_accepted` | propext, Classical.choice, Quot.sound |
| C83 | `Verif.Props.block_size_unchecked` | propext, Classical.choice, Quot.sound |
| C84 | `Verif.Props.decoded_hasTy` | propext, Classical.choice, Quot.sound |
| C84 | `Verif.Props.reencoded_partial` | propext, Classical.choice, Quot.sound |
| C84 | `Verif.Props.defaults_typed` | propext, Classical.choice, Quot.sound |
| C84 | `Verif.Props.root_null_not_restored` | propext, Classical.choice, Quot.sound |
| C85 | `Verif.Props.stopped_unchanged` | propext, Classical.choice, Quot.sound |
| C85 | `Verif.Props.finished_writes` | propext, Classical.choice, Quot.sound |
| C85 | `Verif.Props.finished_complete` | propext, Classical.choice, Quot.sound |
| C85 | `Verif.Props.output_unique` | propext, Classical.choice, Quot.sound |
| C85 | `Verif.Props.any_moment` | propext, Classical.choice, Quot.sound |
| C85 | `Verif.Props.order_irrelevant` | propext, Classical.choice, Quot.sound |
| C85 | `Verif.Props.rerun_repairs` | propext, Classical.choice, Quot.sound |
| C85 | `Verif.Props.can_finish` | propext, Classical.choice, Quot.sound |
| C85 | `Verif.Props.half_written` | propext, Classical.choice, Quot.sound |
| C85 | `Verif.Props.missing_document_ignored` | propext, Classical.choice, Quot.sound |
| C86 | `Verif.Props.written_inside` | propext, Classical.choice, Quot.sound |
| C87 | `Verif.Props.header_is_comment` | propext, Classical.choice, Quot.sound |
| C87 | `Verif.Props.header_names` | propext, Classical.choice, Quot.sound |
| C87 | `Verif.Props.header_comments` | propext, Classical.choice, Quot.sound |
| C88 | `Verif.Props.documents_are_a_set` | propext, Classical.choice, Quot.sound |
| C88 | `Verif.Props.package_of_a_set_partial` | propext, Classical.choice, Quot.sound |
| C88 | `Verif.Props.order_decides_package` | propext, Classical.choice, Quot.sound |
| C89 | `Verif.Props.flag_names` | propext, Classical.choice, Quot.sound |
| C89 | `Verif.Props.full_name_parts` | propext, Classical.choice, Quot.sound |
| C89 | `Verif.Props.short_name_parts` | propext, Classical.choice, Quot.sound |
| C89 | `Verif.Props.plain_name_parts` | propext, Classical.choice, Quot.sound |
| C90 | `Verif.Props.struct_declaration_partial` | propext, Classical.choice, Quot.sound |
| C90 | `Verif.Props.documentation_ignored_partial` | propext, Classical.choice, Quot.sound |
| C90 | `Verif.Props.union_declaration` | propext, Classical.choice, Quot.sound |
| C90 | `Verif.Props.tag_injects` | propext, Classical.choice, Quot.sound |
| C90 | `Verif.Props.doc_refused` | propext, Classical.choice, Quot.sound |
| C91 | `Verif.Props.fingerprint_constant` | propext, Classical.choice, Quot.sound |
| C91 | `Verif.Props.schema_constant` | propext, Classical.choice, Quot.sound |
| C91 | `Verif.Props.union_schema_constant` | propext, Classical.choice, Quot.sound |
| C91 | `Verif.Props.schemaName_constant` | propext, Classical.choice, Quot.sound |
| C91 | `Verif.Props.json_key_constant` | propext, Classical.choice, Quot.sound |
| C91 | `Verif.Props.union_key_constant_partial` | propext, Classical.choice, Quot.sound |
| C91 | `Verif.Props.union_constants` | propext, Classical.choice, Quot.sound |
| C91 | `Verif.Props.enum_constants` | propext, Classical.choice, Quot.sound |
| C91 | `Verif.Props.enum_strings` | propext, Classical.choice, Quot.sound |
| C91 | `Verif.Props.enum_values` | propext, Classical.choice, Quot.sound |
| C91 | `Verif.Props.fixed_declaration` | propext, Classical.choice, Quot.sound |
| C91 | `Verif.Props.fingerprint_method_text` | propext, Classical.choice, Quot.sound |
| C91 | `Verif.Props.union_key_injects` | propext, Classical.choice, Quot.sound |
| C92 | `Verif.Props.fresh_values` | propext, Quot.sound |
| C92 | `Verif.Props.fresh_encodable_partial` | propext, Classical.choice, Quot.sound |
| C93 | `Verif.Props.file_read` | propext, Classical.choice, Quot.sound |
| C93 | `Verif.Props.file_roundtrip_partial` | propext, Classical.choice, Quot.sound |
| C93 | `Verif.Props.file_exchange_partial` | propext, Classical.choice, Quot.sound |
| C93 | `Verif.Props.generated_file_roundtrip_partial` | propext, Classical.choice, Quot.sound |
| C94 | `Verif.Props.document_fingerprint` | propext, Classical.choice, Quot.sound |
| C94 | `Verif.Props.message_exchange_partial` | propext, Classical.choice, Quot.sound |
| C94 | `Verif.Props.message_roundtrip_partial` | propext, Classical.choice, Quot.sound |
| C95 | `Verif.Props.goView_twin` | propext, Classical.choice, Quot.sound |
| C95 | `Verif.Props.copied_counted` | propext, Quot.sound |
| C95 | `Verif.Props.document_generic_partial` | propext, Classical.choice, Quot.sound |
| C96 | `Verif.Props.serializer_text` | propext, Classical.choice, Quot.sound |
| C96 | `Verif.Props.serialize_text` | propext, Classical.choice, Quot.sound |
| C96 | `Verif.Props.serializer_runs` | propext, Classical.choice, Quot.sound |
| C96 | `Verif.Props.serialize_runs` | propext, Classical.choice, Quot.sound |
| C96 | `Verif.Props.serialize_writes_encoding` | propext, Classical.choice, Quot.sound |
| C96 | `Verif.Props.package_has` | propext, Classical.choice, Quot.sound |
| C96 | `Verif.Props.within_closed` | propext, Quot.sound |
| C96 | `Verif.Props.code_roundtrip_partial` | propext, Classical.choice, Quot.sound |
| C97 | `Verif.Props.returns_new_objects` | propext, Classical.choice, Quot.sound |
| C97 | `Verif.Props.memory_outcome` | propext, Classical.choice, Quot.sound |
| C97 | `Verif.Props.memory_returns_iff` | propext, Classical.choice, Quot.sound |
| C97 | `Verif.Props.held_values_stay` | propext, Classical.choice, Quot.sound |
| C97 | `Verif.Props.memory_run` | propext, Quot.sound |
| C98 | `Verif.Props.concurrent_value` | propext, Classical.choice, Quot.sound |
| C98 | `Verif.Props.concurrent_error` | propext, Classical.choice, Quot.sound |
| C98 | `Verif.Props.concurrent_apart` | propext, Classical.choice, Quot.sound |
| C98 | `Verif.Props.concurrent_returns` | propext, Classical.choice, Quot.sound |
| C98 | `Verif.Props.concurrent_fails` | propext, Classical.choice, Quot.sound |
| C98 | `Verif.Props.concurrent_ends` | propext, Classical.choice, Quot.sound |
| C98 | `Verif.Props.alone_iff` | propext, Classical.choice, Quot.sound |
| C98 | `Verif.Props.running_ok` | propext, Classical.choice, Quot.sound |
| C99 | `Verif.Props.methods_text` | propext, Classical.choice, Quot.sound |
| C99 | `Verif.Props.wrapper_declaration` | propext, Classical.choice, Quot.sound |
| C99 | `Verif.Props.null_text` | propext, Classical.choice, Quot.sound |
| C99 | `Verif.Props.boolean_text` | propext, Classical.choice, Quot.sound |
| C99 | `Verif.Props.int_text` | propext, Classical.choice, Quot.sound |
| C99 | `Verif.Props.long_text` | propext, Classical.choice, Quot.sound |
| C99 | `Verif.Props.float_text` | propext, Classical.choice, Quot.sound |
| C99 | `Verif.Props.double_text` | propext, Classical.choice, Quot.sound |
| C99 | `Verif.Props.string_text` | propext, Classical.choice, Quot.sound |
| C99 | `Verif.Props.bytesWrapper_text` | propext, Classical.choice, Quot.sound |
| C99 | `Verif.Props.record_text` | propext, Classical.choice, Quot.sound |
| C99 | `Verif.Props.methods_match` | propext, Classical.choice, Quot.sound |
| C99 | `Verif.Props.methods_decode` | propext, Classical.choice, Quot.sound |
| C99 | `Verif.Props.methods_return` | propext, Classical.choice, Quot.sound |
| C99 | `Verif.Props.methods_outcome` | propext, Classical.choice, Quot.sound |
| C99 | `Verif.Props.programs_roundtrip_partial` | propext, Classical.choice, Quot.sound |
