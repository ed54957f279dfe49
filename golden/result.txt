/repo/v10/test/alias-field/alias_record_container.go: imports ok same
/repo/v10/test/alias-field/alias_record.go: imports ok same
/repo/v10/test/alias-field/evolution/alias_record_container.go: imports ok same
/repo/v10/test/alias-field/evolution/alias_record.go: imports ok same
/repo/v10/test/alias-fixed/union_ip_address_event.go: imports ok same
/repo/v10/test/alias-fixed/event_container.go: imports ok same
/repo/v10/test/alias-fixed/event.go: imports ok same
/repo/v10/test/alias-fixed/ip_address.go: imports ok same
/repo/v10/test/alias-fixed/evolution/union_ip_address_event.go: imports ok same
/repo/v10/test/alias-fixed/evolution/event_container.go: imports ok same
/repo/v10/test/alias-fixed/evolution/event.go: imports ok same
/repo/v10/test/alias-fixed/evolution/ip_address.go: imports ok same
/repo/v10/test/alias-record/union_nested_record_nested_test_record.go: imports ok same
/repo/v10/test/alias-record/nested_test_record_container.go: imports ok same
/repo/v10/test/alias-record/nested_test_record.go: imports ok same
/repo/v10/test/alias-record/bytes.go: imports ok same
/repo/v10/test/alias-record/nested_record_container.go: imports ok same
/repo/v10/test/alias-record/nested_record.go: imports ok same
/repo/v10/test/alias-record/evolution/union_aliased_record_nested_test_record.go: imports ok same
/repo/v10/test/alias-record/evolution/nested_test_record_container.go: imports ok same
/repo/v10/test/alias-record/evolution/nested_test_record.go: imports ok same
/repo/v10/test/alias-record/evolution/bytes.go: imports ok same
/repo/v10/test/alias-record/evolution/aliased_record_container.go: imports ok same
/repo/v10/test/alias-record/evolution/aliased_record.go: imports ok same
/repo/v10/test/arrays-union/union_null_int.go: imports ok same
/repo/v10/test/arrays-union/array_union_null_int.go: imports ok same
/repo/v10/test/arrays-union/array_test_record_container.go: imports ok same
/repo/v10/test/arrays-union/array_test_record.go: imports ok same
/repo/v10/test/arrays/bytes.go: imports ok same
/repo/v10/test/arrays/array_bytes.go: imports ok same
/repo/v10/test/arrays/array_bool.go: imports ok same
/repo/v10/test/arrays/array_float.go: imports ok same
/repo/v10/test/arrays/array_string.go: imports ok same
/repo/v10/test/arrays/array_double.go: imports ok same
/repo/v10/test/arrays/array_long.go: imports ok same
/repo/v10/test/arrays/array_int.go: imports ok same
/repo/v10/test/arrays/array_test_record_container.go: imports ok same
/repo/v10/test/arrays/array_test_record.go: imports ok same
/repo/v10/test/avro-java-string/event_container.go: imports ok same
/repo/v10/test/avro-java-string/event.go: imports ok same
/repo/v10/test/complex-arrays-multifile/child_container.go: imports ok same
/repo/v10/test/complex-arrays-multifile/child.go: imports ok same
/repo/v10/test/complex-arrays-multifile/array_child.go: imports ok same
/repo/v10/test/complex-arrays-multifile/parent_container.go: imports ok same
/repo/v10/test/complex-arrays-multifile/parent.go: imports ok same
/repo/v10/test/complex-arrays/array_child.go: imports ok same
/repo/v10/test/complex-arrays/parent_container.go: imports ok same
/repo/v10/test/complex-arrays/parent.go: imports ok same
/repo/v10/test/complex-arrays/child_container.go: imports ok same
/repo/v10/test/complex-arrays/child.go: imports ok same
/repo/v10/test/complex-union/map_int.go: imports ok same
/repo/v10/test/complex-union/array_int.go: imports ok same
/repo/v10/test/complex-union/union_null_array_int_map_int_nested_union_record.go: imports ok same
/repo/v10/test/complex-union/complex_union_test_record_container.go: imports ok same
/repo/v10/test/complex-union/complex_union_test_record.go: imports ok same
/repo/v10/test/complex-union/nested_union_record_container.go: imports ok same
/repo/v10/test/complex-union/nested_union_record.go: imports ok same
/repo/v10/test/default-fixed/fixed_default_test_record_container.go: imports ok same
/repo/v10/test/default-fixed/fixed_default_test_record.go: imports ok same
/repo/v10/test/default-fixed/test_fixed_default_type.go: imports ok same
/repo/v10/test/default-union/union_record_container.go: imports ok same
/repo/v10/test/default-union/union_record.go: imports ok same
/repo/v10/test/default-union/evolution/union_union_rec_string.go: imports ok same
/repo/v10/test/default-union/evolution/union_string_int.go: imports ok same
/repo/v10/test/default-union/evolution/union_null_string.go: imports ok same
/repo/v10/test/default-union/evolution/union_record_container.go: imports ok same
/repo/v10/test/default-union/evolution/union_record.go: imports ok same
/repo/v10/test/default-union/evolution/union_rec_container.go: imports ok same
/repo/v10/test/default-union/evolution/union_rec.go: imports ok same
/repo/v10/test/enum-default/enum_test_record_container.go: imports ok same
/repo/v10/test/enum-default/enum_test_record.go: imports ok same
/repo/v10/test/enum-default/test_enum_type.go: imports ok same
/repo/v10/test/enum-default/evolution/enum_test_record_container.go: imports ok same
/repo/v10/test/enum-default/evolution/enum_test_record.go: imports ok same
/repo/v10/test/enum-default/evolution/test_enum_type.go: imports ok same
/repo/v10/test/enum-multiple-namespaces/com_company_team_some_type_container.go: imports ok same
/repo/v10/test/enum-multiple-namespaces/com_company_team_some_type.go: imports ok same
/repo/v10/test/enum-multiple-namespaces/com_company_shared_type_two_container.go: imports ok same
/repo/v10/test/enum-multiple-namespaces/com_company_shared_type_two.go: imports ok same
/repo/v10/test/enum-multiple-namespaces/com_company_shared_some_enum.go: imports ok same
/repo/v10/test/enum-multiple-namespaces/com_company_team_type_one_container.go: imports ok same
/repo/v10/test/enum-multiple-namespaces/com_company_team_type_one.go: imports ok same
/repo/v10/test/enum-multiple-namespaces/com_company_team_some_enum.go: imports ok same
/repo/v10/test/enum-removed/enum_test_record_container.go: imports ok same
/repo/v10/test/enum-removed/enum_test_record.go: imports ok same
/repo/v10/test/enum-removed/test_enum_type.go: imports ok same
/repo/v10/test/enum-removed/evolution/enum_test_record_container.go: imports ok same
/repo/v10/test/enum-removed/evolution/enum_test_record.go: imports ok same
/repo/v10/test/enum/enum_test_record_container.go: imports ok same
/repo/v10/test/enum/enum_test_record.go: imports ok same
/repo/v10/test/enum/test_enum_type.go: imports ok same
/repo/v10/test/evolve-union/union_null_string.go: imports ok same
/repo/v10/test/evolve-union/union_null_int.go: imports ok same
/repo/v10/test/evolve-union/union_record_container.go: imports ok same
/repo/v10/test/evolve-union/union_record.go: imports ok same
/repo/v10/test/evolve-union/evolution/union_null_string.go: imports ok same
/repo/v10/test/evolve-union/evolution/union_record_container.go: imports ok same
/repo/v10/test/evolve-union/evolution/union_record.go: imports ok same
/repo/v10/test/fixed-multiple-namespaces/conflicting_namespace_fixed_test_record_container.go: imports ok same
/repo/v10/test/fixed-multiple-namespaces/conflicting_namespace_fixed_test_record.go: imports ok same
/repo/v10/test/fixed-multiple-namespaces/com_company_shared_conflicting_fixed_type.go: imports ok same
/repo/v10/test/fixed-multiple-namespaces/com_company_team_conflicting_fixed_type.go: imports ok same
/repo/v10/test/fixed/fixed_test_record_container.go: imports ok same
/repo/v10/test/fixed/fixed_test_record.go: imports ok same
/repo/v10/test/fixed/test_fixed_type.go: imports ok same
/repo/v10/test/go-struct-tags/struct_tag_container.go: imports ok same
/repo/v10/test/go-struct-tags/struct_tag.go: imports ok same
/repo/v10/test/lax-names/union_record_foo_record_bar.go: imports ok same
/repo/v10/test/lax-names/array_union_record_foo_record_bar.go: imports ok same
/repo/v10/test/lax-names/record_schema_container.go: imports ok same
/repo/v10/test/lax-names/record_schema.go: imports ok same
/repo/v10/test/lax-names/record_bar_container.go: imports ok same
/repo/v10/test/lax-names/record_bar.go: imports ok same
/repo/v10/test/lax-names/record_foo_container.go: imports ok same
/repo/v10/test/lax-names/record_foo.go: imports ok same
/repo/v10/test/maps-union/union_null_int.go: imports ok same
/repo/v10/test/maps-union/map_union_null_int.go: imports ok same
/repo/v10/test/maps-union/map_test_record_container.go: imports ok same
/repo/v10/test/maps-union/map_test_record.go: imports ok same
/repo/v10/test/maps/bytes.go: imports ok same
/repo/v10/test/maps/map_bytes.go: imports ok same
/repo/v10/test/maps/map_bool.go: imports ok same
/repo/v10/test/maps/map_float.go: imports ok same
/repo/v10/test/maps/map_string.go: imports ok same
/repo/v10/test/maps/map_double.go: imports ok same
/repo/v10/test/maps/map_long.go: imports ok same
/repo/v10/test/maps/map_int.go: imports ok same
/repo/v10/test/maps/map_test_record_container.go: imports ok same
/repo/v10/test/maps/map_test_record.go: imports ok same
/repo/v10/test/name-conflict/name_conflict_test_record_container.go: imports ok same
/repo/v10/test/name-conflict/name_conflict_test_record.go: imports ok same
/repo/v10/test/namespace-full/union_null_bodyworks_data.go: imports ok same
/repo/v10/test/namespace-full/union_null_headerworks_data.go: imports ok same
/repo/v10/test/namespace-full/com_avro_test_sample_container.go: imports ok same
/repo/v10/test/namespace-full/com_avro_test_sample.go: imports ok same
/repo/v10/test/namespace-full/union_null_bodyworks_trace.go: imports ok same
/repo/v10/test/namespace-full/union_null_string.go: imports ok same
/repo/v10/test/namespace-full/union_null_bodyworks_datatype_uuid.go: imports ok same
/repo/v10/test/namespace-full/bodyworks_data_container.go: imports ok same
/repo/v10/test/namespace-full/bodyworks_data.go: imports ok same
/repo/v10/test/namespace-full/union_null_headerworks_datatype_uuid.go: imports ok same
/repo/v10/test/namespace-full/bodyworks_trace_container.go: imports ok same
/repo/v10/test/namespace-full/bodyworks_trace.go: imports ok same
/repo/v10/test/namespace-full/bodyworks_datatype_uuid_container.go: imports ok same
/repo/v10/test/namespace-full/bodyworks_datatype_uuid.go: imports ok same
/repo/v10/test/namespace-full/union_null_headerworks_trace.go: imports ok same
/repo/v10/test/namespace-full/headerworks_data_container.go: imports ok same
/repo/v10/test/namespace-full/headerworks_data.go: imports ok same
/repo/v10/test/namespace-full/headerworks_trace_container.go: imports ok same
/repo/v10/test/namespace-full/headerworks_trace.go: imports ok same
/repo/v10/test/namespace-full/headerworks_datatype_uuid_container.go: imports ok same
/repo/v10/test/namespace-full/headerworks_datatype_uuid.go: imports ok same
/repo/v10/test/namespace-short/union_null_bodyworks_data.go: imports ok same
/repo/v10/test/namespace-short/union_null_headerworks_data.go: imports ok same
/repo/v10/test/namespace-short/test_sample_container.go: imports ok same
/repo/v10/test/namespace-short/test_sample.go: imports ok same
/repo/v10/test/namespace-short/union_null_bodyworks_trace.go: imports ok same
/repo/v10/test/namespace-short/union_null_string.go: imports ok same
/repo/v10/test/namespace-short/union_null_datatype_uuid.go: imports ok same
/repo/v10/test/namespace-short/bodyworks_data_container.go: imports ok same
/repo/v10/test/namespace-short/bodyworks_data.go: imports ok same
/repo/v10/test/namespace-short/bodyworks_trace_container.go: imports ok same
/repo/v10/test/namespace-short/bodyworks_trace.go: imports ok same
/repo/v10/test/namespace-short/datatype_uuid_container.go: imports ok same
/repo/v10/test/namespace-short/datatype_uuid.go: imports ok same
/repo/v10/test/namespace-short/union_null_headerworks_trace.go: imports ok same
/repo/v10/test/namespace-short/headerworks_data_container.go: imports ok same
/repo/v10/test/namespace-short/headerworks_data.go: imports ok same
/repo/v10/test/namespace-short/headerworks_trace_container.go: imports ok same
/repo/v10/test/namespace-short/headerworks_trace.go: imports ok same
/repo/v10/test/nested-map-array/array_map_test_record.go: imports ok same
/repo/v10/test/nested-map-array/map_array_map_test_record.go: imports ok same
/repo/v10/test/nested-map-array/map_test_record_container.go: imports ok same
/repo/v10/test/nested-map-array/map_test_record.go: imports ok same
/repo/v10/test/nested-maps/array_string.go: imports ok same
/repo/v10/test/nested-maps/map_array_string.go: imports ok same
/repo/v10/test/nested-maps/map_map_array_string.go: imports ok same
/repo/v10/test/nested-maps/nested_map_container.go: imports ok same
/repo/v10/test/nested-maps/nested_map.go: imports ok same
/repo/v10/test/nested/nested_test_record_container.go: imports ok same
/repo/v10/test/nested/nested_test_record.go: imports ok same
/repo/v10/test/nested/bytes.go: imports ok same
/repo/v10/test/nested/nested_record_container.go: imports ok same
/repo/v10/test/nested/nested_record.go: imports ok same
/repo/v10/test/nested/number_record_container.go: imports ok same
/repo/v10/test/nested/number_record.go: imports ok same
/repo/v10/test/primitive/bytes.go: imports ok same
/repo/v10/test/primitive/primitive_test_record_container.go: imports ok same
/repo/v10/test/primitive/primitive_test_record.go: imports ok same
/repo/v10/test/primitive/evolution/bytes.go: imports ok same
/repo/v10/test/primitive/evolution/primitive_test_record_container.go: imports ok same
/repo/v10/test/primitive/evolution/primitive_test_record.go: imports ok same
/repo/v10/test/recursive-short/recursive_field_union.go: imports ok same
/repo/v10/test/recursive-short/recursive_union_test_record_container.go: imports ok same
/repo/v10/test/recursive-short/recursive_union_test_record.go: imports ok same
/repo/v10/test/recursive/union_null_recursive_union_test_record.go: imports ok same
/repo/v10/test/recursive/recursive_union_test_record_container.go: imports ok same
/repo/v10/test/recursive/recursive_union_test_record.go: imports ok same
/repo/v10/test/string/string_rec_container.go: imports ok same
/repo/v10/test/string/string_rec.go: imports ok same
/repo/v10/test/union-root-short/union_ip_address_event.go: imports ok same
/repo/v10/test/union-root-short/event_container.go: imports ok same
/repo/v10/test/union-root-short/event.go: imports ok same
/repo/v10/test/union-root-short/ip_address.go: imports ok same
/repo/v10/test/union-root/union_ip_address_event.go: imports ok same
/repo/v10/test/union-root/event_container.go: imports ok same
/repo/v10/test/union-root/event.go: imports ok same
/repo/v10/test/union-root/ip_address.go: imports ok same
/repo/v10/test/union-short/union_int_long_float_double_string_bool_null.go: imports ok same
/repo/v10/test/union-short/primitive_union_test_record_container.go: imports ok same
/repo/v10/test/union-short/primitive_union_test_record.go: imports ok same
/repo/v10/test/union-string-bytes/bytes.go: imports ok same
/repo/v10/test/union-string-bytes/union_bytes_string_record1_record2.go: imports ok same
/repo/v10/test/union-string-bytes/primitive_union_test_record_container.go: imports ok same
/repo/v10/test/union-string-bytes/primitive_union_test_record.go: imports ok same
/repo/v10/test/union-string-bytes/record2_container.go: imports ok same
/repo/v10/test/union-string-bytes/record2.go: imports ok same
/repo/v10/test/union-string-bytes/record1_container.go: imports ok same
/repo/v10/test/union-string-bytes/record1.go: imports ok same
/repo/v10/test/union-string/union_string_null.go: imports ok same
/repo/v10/test/union-string/union_null_string.go: imports ok same
/repo/v10/test/union-string/record_v1_container.go: imports ok same
/repo/v10/test/union-string/record_v1.go: imports ok same
/repo/v10/test/union/union_null_string_long_int_float_double_bool.go: imports ok same
/repo/v10/test/union/primitive_union_test_record_container.go: imports ok same
/repo/v10/test/union/primitive_union_test_record.go: imports ok same
/repo/v10/test/union/evolution/union_string_long_int_float_double_null_bool.go: imports ok same
/repo/v10/test/union/evolution/primitive_union_test_record_container.go: imports ok same
/repo/v10/test/union/evolution/primitive_union_test_record.go: imports ok same
/repo/v10/example/avro/bytes.go: imports ok same
/repo/v10/example/avro/demo_schema_container.go: imports ok same
/repo/v10/example/avro/demo_schema.go: imports ok same
