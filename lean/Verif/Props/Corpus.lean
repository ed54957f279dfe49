import Verif.Props.Vectors
/-
More outputs of the program: the generated code in v10/test. For each directory, the files the model says are written
are those that are there (but for two left from an older version), and for some the declarations in them too. Tests
of the transcription, not proofs of properties. Long lines are copies.
-/
namespace Verif.Props.Corpus
open Verif Spec Spec.Go Vectors

/-- The command wrote these files. -/
def wrote (nm : Namer) (containers short : Bool) (docs : List Json) (files : List String) : Bool :=
  match parseCommand short docs with
  | .error _ => false
  | .ok n => let fs := (generate nm containers n).map Prod.fst
    fs.length == files.length && files.all fun f => fs.contains f.toList

/-- In the file of that name the command put the declarations of this list. -/
def wroteIn (nm : Namer) (containers short : Bool) (docs : List Json) (print : Char → Bool) (file : String) (texts : List Str) : Bool :=
  match parseCommand short docs with
  | .error _ => false
  | .ok n => match (generate nm containers n).find? (fun e => e.1 == file.toList) with
    | none => false
    | some (_, .container _) => false
    | some (_, .ty (.union s ts d)) =>
      let name := (PTy.union s ts d).goName nm n
      all [unionStructText nm n name ts, unionConstText nm n name ts] texts
    | some (_, .ty _) => false
    | some (_, .defn d) => match d.kind with
      | .record fs doc => match recordFingerprint ⟨n.env, .ref d.name⟩ with
        | some fp => all [structText nm n print (d.goName nm) doc fs, fingerprintText print (d.goName nm) fp,
            schemaNameText print (d.goName nm) (utf8 d.name.str)] texts
        | none => false
      | .enum syms doc dv => all [enumText nm (d.goName nm) doc syms, stringText nm print (d.goName nm) syms,
          valueText nm print (d.goName nm) dv syms] texts
      | .fixed k => all [fixedText (d.goName nm) k.toNat] texts
where
  all : List Str → List Str → Bool
    | [], [] => true
    | a :: l, b :: l' => sameTokens a b && all l l'
    | _, _ => false

/-- The characters above ASCII in these files that are not escaped. -/
def shown (c : Char) : Bool := asciiPrint c || c.toNat ≥ 0xa1

/-- v10/test/alias-field/schema.avsc -/
def d_alias_field : List Json := [(.obj [("fields".toList, (.arr [(.obj [("name".toList, (.str "a".toList)), ("type".toList, (.str "string".toList))]), (.obj [("name".toList, (.str "c".toList)), ("type".toList, (.str "string".toList))])])), ("name".toList, (.str "AliasRecord".toList)), ("type".toList, (.str "record".toList))])]
example : wrote .simple true false d_alias_field
    ["alias_record.go", "alias_record_container.go"] = true := by decide +kernel
/-- v10/test/alias-field/evolution.avsc -/
def d_alias_field_evolution : List Json := [(.obj [("fields".toList, (.arr [(.obj [("aliases".toList, (.arr [(.str "a".toList)])), ("name".toList, (.str "b".toList)), ("type".toList, (.str "string".toList))]), (.obj [("name".toList, (.str "c".toList)), ("type".toList, (.str "string".toList))])])), ("name".toList, (.str "AliasRecord".toList)), ("type".toList, (.str "record".toList))])]
example : wrote .simple true false d_alias_field_evolution
    ["alias_record.go", "alias_record_container.go"] = true := by decide +kernel
/-- v10/test/alias-fixed/schema.avsc -/
def d_alias_fixed : List Json := [(.arr [(.obj [("name".toList, (.str "ip_address".toList)), ("size".toList, (.num 16)), ("type".toList, (.str "fixed".toList))]), (.obj [("doc".toList, (.str "The test record".toList)), ("fields".toList, (.arr [(.obj [("doc".toList, (.str "Unique ID for this event.".toList)), ("name".toList, (.str "id".toList)), ("type".toList, (.str "string".toList))]), (.obj [("doc".toList, (.str "Start IP of this observation's IP range.".toList)), ("name".toList, (.str "start_ip".toList)), ("type".toList, (.str "ip_address".toList))]), (.obj [("doc".toList, (.str "End IP of this observation's IP range.".toList)), ("name".toList, (.str "end_ip".toList)), ("type".toList, (.str "ip_address".toList))])])), ("name".toList, (.str "event".toList)), ("subject".toList, (.str "event".toList)), ("type".toList, (.str "record".toList))])])]
example : wrote .simple true false d_alias_fixed
    ["event.go", "event_container.go", "ip_address.go", "union_ip_address_event.go"] = true := by decide +kernel
/-- v10/test/alias-fixed/evolution.avsc -/
def d_alias_fixed_evolution : List Json := [(.arr [(.obj [("aliases".toList, (.arr [(.str "ip_address".toList)])), ("name".toList, (.str "IPAddress".toList)), ("size".toList, (.num 16)), ("type".toList, (.str "fixed".toList))]), (.obj [("doc".toList, (.str "The test record".toList)), ("fields".toList, (.arr [(.obj [("doc".toList, (.str "Unique ID for this event.".toList)), ("name".toList, (.str "id".toList)), ("type".toList, (.str "string".toList))]), (.obj [("doc".toList, (.str "Start IP of this observation's IP range.".toList)), ("name".toList, (.str "start_ip".toList)), ("type".toList, (.str "IPAddress".toList))]), (.obj [("doc".toList, (.str "End IP of this observation's IP range.".toList)), ("name".toList, (.str "end_ip".toList)), ("type".toList, (.str "IPAddress".toList))])])), ("name".toList, (.str "event".toList)), ("subject".toList, (.str "event".toList)), ("type".toList, (.str "record".toList))])])]
example : wrote .simple true false d_alias_fixed_evolution
    ["event.go", "event_container.go", "ip_address.go", "union_ip_address_event.go"] = true := by decide +kernel
/-- v10/test/alias-record/schema.avsc -/
def d_alias_record : List Json := [(.arr [(.obj [("fields".toList, (.arr [(.obj [("name".toList, (.str "StringField".toList)), ("type".toList, (.str "string".toList))]), (.obj [("name".toList, (.str "BoolField".toList)), ("type".toList, (.str "boolean".toList))]), (.obj [("name".toList, (.str "BytesField".toList)), ("type".toList, (.str "bytes".toList))])])), ("name".toList, (.str "NestedRecord".toList)), ("type".toList, (.str "record".toList))]), (.obj [("fields".toList, (.arr [(.obj [("name".toList, (.str "OtherField".toList)), ("type".toList, (.str "NestedRecord".toList))])])), ("name".toList, (.str "NestedTestRecord".toList)), ("type".toList, (.str "record".toList))])])]
example : wrote .simple true false d_alias_record
    ["bytes.go", "nested_record.go", "nested_record_container.go", "nested_test_record.go", "nested_test_record_container.go", "union_nested_record_nested_test_record.go"] = true := by decide +kernel
/-- v10/test/alias-record/evolution.avsc -/
def d_alias_record_evolution : List Json := [(.arr [(.obj [("aliases".toList, (.arr [(.str "NestedRecord".toList)])), ("fields".toList, (.arr [(.obj [("name".toList, (.str "StringField".toList)), ("type".toList, (.str "string".toList))]), (.obj [("name".toList, (.str "BoolField".toList)), ("type".toList, (.str "boolean".toList))]), (.obj [("name".toList, (.str "BytesField".toList)), ("type".toList, (.str "bytes".toList))])])), ("name".toList, (.str "aliasedRecord".toList)), ("type".toList, (.str "record".toList))]), (.obj [("fields".toList, (.arr [(.obj [("name".toList, (.str "OtherField".toList)), ("type".toList, (.str "aliasedRecord".toList))])])), ("name".toList, (.str "NestedTestRecord".toList)), ("type".toList, (.str "record".toList))])])]
example : wrote .simple true false d_alias_record_evolution
    ["aliased_record.go", "aliased_record_container.go", "bytes.go", "nested_test_record.go", "nested_test_record_container.go", "union_aliased_record_nested_test_record.go"] = true := by decide +kernel
/-- v10/test/arrays-union/schema.avsc -/
def d_arrays_union : List Json := [(.obj [("fields".toList, (.arr [(.obj [("name".toList, (.str "IntField".toList)), ("type".toList, (.obj [("items".toList, (.arr [(.str "null".toList), (.str "int".toList)])), ("type".toList, (.str "array".toList))]))])])), ("name".toList, (.str "ArrayTestRecord".toList)), ("type".toList, (.str "record".toList))])]
example : wrote .simple true false d_arrays_union
    ["array_test_record.go", "array_test_record_container.go", "array_union_null_int.go", "union_null_int.go"] = true := by decide +kernel
/-- v10/test/arrays/schema.avsc -/
def d_arrays : List Json := [(.obj [("fields".toList, (.arr [(.obj [("default".toList, (.arr [(.num 1), (.num 2), (.num 3), (.num 4)])), ("name".toList, (.str "IntField".toList)), ("type".toList, (.obj [("items".toList, (.str "int".toList)), ("type".toList, (.str "array".toList))]))]), (.obj [("default".toList, (.arr [(.num 5), (.num 6), (.num 7), (.num 8)])), ("name".toList, (.str "LongField".toList)), ("type".toList, (.obj [("items".toList, (.str "long".toList)), ("type".toList, (.str "array".toList))]))]), (.obj [("default".toList, (.arr [(.real 0x3ff8000000000000#64), (.real 0x4003333333333333#64)])), ("name".toList, (.str "DoubleField".toList)), ("type".toList, (.obj [("items".toList, (.str "double".toList)), ("type".toList, (.str "array".toList))]))]), (.obj [("default".toList, (.arr [(.str "abc".toList), (.str "def".toList)])), ("name".toList, (.str "StringField".toList)), ("type".toList, (.obj [("items".toList, (.str "string".toList)), ("type".toList, (.str "array".toList))]))]), (.obj [("default".toList, (.arr [(.real 0x3ff3ae147ae147ae#64), (.real 0x400b99999999999a#64)])), ("name".toList, (.str "FloatField".toList)), ("type".toList, (.obj [("items".toList, (.str "float".toList)), ("type".toList, (.str "array".toList))]))]), (.obj [("default".toList, (.arr [(.bool true), (.bool false)])), ("name".toList, (.str "BoolField".toList)), ("type".toList, (.obj [("items".toList, (.str "boolean".toList)), ("type".toList, (.str "array".toList))]))]), (.obj [("default".toList, (.arr [(.str "abc".toList), (.str "def".toList)])), ("name".toList, (.str "BytesField".toList)), ("type".toList, (.obj [("items".toList, (.str "bytes".toList)), ("type".toList, (.str "array".toList))]))])])), ("name".toList, (.str "ArrayTestRecord".toList)), ("type".toList, (.str "record".toList))])]
example : wrote .simple true false d_arrays
    ["array_bool.go", "array_bytes.go", "array_double.go", "array_float.go", "array_int.go", "array_long.go", "array_string.go", "array_test_record.go", "array_test_record_container.go", "bytes.go"] = true := by decide +kernel
/-- v10/test/avro-java-string/schema.avsc -/
def d_avro_java_string : List Json := [(.obj [("fields".toList, (.arr [(.obj [("doc".toList, (.str "Unique ID for this event.".toList)), ("name".toList, (.str "id".toList)), ("type".toList, (.obj [("avro.java.string".toList, (.str "String".toList)), ("type".toList, (.str "string".toList))]))])])), ("name".toList, (.str "event".toList)), ("subject".toList, (.str "event".toList)), ("type".toList, (.str "record".toList))])]
example : wrote .simple true false d_avro_java_string
    ["event.go", "event_container.go"] = true := by decide +kernel
/-- v10/test/complex-arrays-multifile/parent.avsc, complex-arrays-multifile/child.avsc -/
def d_complex_arrays_multifile : List Json := [(.obj [("fields".toList, (.arr [(.obj [("name".toList, (.str "Children".toList)), ("type".toList, (.obj [("items".toList, (.str "child".toList)), ("type".toList, (.str "array".toList))]))])])), ("name".toList, (.str "Parent".toList)), ("type".toList, (.str "record".toList))]), (.obj [("fields".toList, (.arr [(.obj [("name".toList, (.str "name".toList)), ("type".toList, (.str "string".toList))])])), ("name".toList, (.str "child".toList)), ("type".toList, (.str "record".toList))])]
example : wrote .simple true false d_complex_arrays_multifile
    ["array_child.go", "child.go", "child_container.go", "parent.go", "parent_container.go"] = true := by decide +kernel
/-- v10/test/complex-arrays/schema.avsc -/
def d_complex_arrays : List Json := [(.obj [("fields".toList, (.arr [(.obj [("default".toList, (.arr [(.obj [("name".toList, (.str "record1".toList))]), (.obj [("name".toList, (.str "record2".toList))])])), ("name".toList, (.str "Children".toList)), ("type".toList, (.obj [("items".toList, (.obj [("fields".toList, (.arr [(.obj [("name".toList, (.str "name".toList)), ("type".toList, (.str "string".toList))])])), ("name".toList, (.str "Child".toList)), ("type".toList, (.str "record".toList))])), ("type".toList, (.str "array".toList))]))])])), ("name".toList, (.str "Parent".toList)), ("type".toList, (.str "record".toList))])]
example : wrote .simple true false d_complex_arrays
    ["array_child.go", "child.go", "child_container.go", "parent.go", "parent_container.go"] = true := by decide +kernel
/-- v10/test/complex-union/schema.avsc -/
def d_complex_union : List Json := [(.obj [("fields".toList, (.arr [(.obj [("name".toList, (.str "UnionField".toList)), ("type".toList, (.arr [(.str "null".toList), (.obj [("items".toList, (.str "int".toList)), ("type".toList, (.str "array".toList))]), (.obj [("type".toList, (.str "map".toList)), ("values".toList, (.str "int".toList))]), (.obj [("fields".toList, (.arr [(.obj [("name".toList, (.str "IntField".toList)), ("type".toList, (.str "int".toList))])])), ("name".toList, (.str "NestedUnionRecord".toList)), ("type".toList, (.str "record".toList))])]))])])), ("name".toList, (.str "ComplexUnionTestRecord".toList)), ("type".toList, (.str "record".toList))])]
example : wrote .simple true false d_complex_union
    ["array_int.go", "complex_union_test_record.go", "complex_union_test_record_container.go", "map_int.go", "nested_union_record.go", "nested_union_record_container.go", "union_null_array_int_map_int_nested_union_record.go"] = true := by decide +kernel
/-- v10/test/default-fixed/schema.avsc -/
def d_default_fixed : List Json := [(.obj [("fields".toList, (.arr [(.obj [("default".toList, (.str "\x00\x01\x12\x00\x13C\x00\x01\x12\x00\x13S".toList)), ("name".toList, (.str "FixedField".toList)), ("type".toList, (.obj [("name".toList, (.str "TestFixedDefaultType".toList)), ("size".toList, (.num 12)), ("type".toList, (.str "fixed".toList))]))])])), ("name".toList, (.str "FixedDefaultTestRecord".toList)), ("type".toList, (.str "record".toList))])]
example : wrote .simple true false d_default_fixed
    ["fixed_default_test_record.go", "fixed_default_test_record_container.go", "test_fixed_default_type.go"] = true := by decide +kernel
/-- v10/test/default-union/schema.avsc -/
def d_default_union : List Json := [(.obj [("fields".toList, (.arr [(.obj [("default".toList, (.str "test_id".toList)), ("name".toList, (.str "id".toList)), ("type".toList, (.str "string".toList))]), (.obj [("default".toList, (.num 100)), ("name".toList, (.str "age".toList)), ("type".toList, (.str "int".toList))])])), ("name".toList, (.str "UnionRecord".toList)), ("type".toList, (.str "record".toList))])]
example : wrote .simple true false d_default_union
    ["union_record.go", "union_record_container.go"] = true := by decide +kernel
/-- v10/test/default-union/evolution.avsc -/
def d_default_union_evolution : List Json := [(.obj [("fields".toList, (.arr [(.obj [("default".toList, (.str "test_id".toList)), ("name".toList, (.str "id".toList)), ("type".toList, (.str "string".toList))]), (.obj [("default".toList, .null), ("name".toList, (.str "unionNull".toList)), ("type".toList, (.arr [(.str "null".toList), (.str "string".toList)]))]), (.obj [("default".toList, (.str "hello".toList)), ("name".toList, (.str "unionString".toList)), ("type".toList, (.arr [(.str "string".toList), (.str "int".toList)]))]), (.obj [("default".toList, (.obj [("a".toList, (.num 1))])), ("name".toList, (.str "unionRecord".toList)), ("type".toList, (.arr [(.obj [("fields".toList, (.arr [(.obj [("name".toList, (.str "a".toList)), ("type".toList, (.str "int".toList))])])), ("name".toList, (.str "unionRec".toList)), ("type".toList, (.str "record".toList))]), (.str "string".toList)]))])])), ("name".toList, (.str "UnionRecord".toList)), ("type".toList, (.str "record".toList))])]
example : wrote .simple true false d_default_union_evolution
    ["union_null_string.go", "union_rec.go", "union_rec_container.go", "union_record.go", "union_record_container.go", "union_string_int.go", "union_union_rec_string.go"] = true := by decide +kernel
/-- v10/test/enum-default/schema.avsc -/
def d_enum_default : List Json := [(.obj [("fields".toList, (.arr [(.obj [("name".toList, (.str "EnumField".toList)), ("type".toList, (.obj [("doc".toList, (.str "Test \nenum".toList)), ("name".toList, (.str "TestEnumType".toList)), ("symbols".toList, (.arr [(.str "TestSymbol1".toList), (.str "TestSymbol2".toList), (.str "TestSymbol3".toList)])), ("type".toList, (.str "enum".toList))]))])])), ("name".toList, (.str "EnumTestRecord".toList)), ("type".toList, (.str "record".toList))])]
example : wrote .simple true false d_enum_default
    ["enum_test_record.go", "enum_test_record_container.go", "test_enum_type.go"] = true := by decide +kernel
/-- v10/test/enum-default/evolution.avsc -/
def d_enum_default_evolution : List Json := [(.obj [("fields".toList, (.arr [(.obj [("name".toList, (.str "EnumField".toList)), ("type".toList, (.obj [("default".toList, (.str "TestSymbol1".toList)), ("doc".toList, (.str "Test \nenum".toList)), ("name".toList, (.str "TestEnumType".toList)), ("symbols".toList, (.arr [(.str "TestSymbol3".toList), (.str "TestSymbol1".toList)])), ("type".toList, (.str "enum".toList))]))])])), ("name".toList, (.str "EnumTestRecord".toList)), ("type".toList, (.str "record".toList))])]
example : wrote .simple true false d_enum_default_evolution
    ["enum_test_record.go", "enum_test_record_container.go", "test_enum_type.go"] = true := by decide +kernel
example : wroteIn .simple true false d_enum_default_evolution shown "enum_test_record.go" [("\ntype EnumTestRe".toList ++ "cord struct {\n\tE".toList ++ "numField TestEnu".toList ++ "mType `json:\"Enu".toList ++ "mField\"`\n}\n".toList),
    ("const EnumTestRe".toList ++ "cordAvroCRC64Fin".toList ++ "gerprint = \"m\\xb".toList ++ "3s\\x86\\x18Se\\xe4".toList ++ "\"\n".toList),
    ("func (r EnumTest".toList ++ "Record) SchemaNa".toList ++ "me() string {\n\tr".toList ++ "eturn \"EnumTestR".toList ++ "ecord\"\n}\n".toList)] = true := by decide +kernel
example : wroteIn .simple true false d_enum_default_evolution shown "test_enum_type.go" [("type TestEnumTyp".toList ++ "e int32\n\nconst (".toList ++ "\n\tTestEnumTypeTe".toList ++ "stSymbol3 TestEn".toList ++ "umType = 0\n\tTest".toList ++ "EnumTypeTestSymb".toList ++ "ol1 TestEnumType".toList ++ " = 1\n)\n".toList),
    ("func (e TestEnum".toList ++ "Type) String() s".toList ++ "tring {\n\tswitch ".toList ++ "e {\n\tcase TestEn".toList ++ "umTypeTestSymbol".toList ++ "3:\n\t\treturn \"Tes".toList ++ "tSymbol3\"\n\tcase ".toList ++ "TestEnumTypeTest".toList ++ "Symbol1:\n\t\tretur".toList ++ "n \"TestSymbol1\"\n".toList ++ "\t}\n\treturn \"unkn".toList ++ "own\"\n}\n".toList),
    ("func NewTestEnum".toList ++ "TypeValue(raw st".toList ++ "ring) (r TestEnu".toList ++ "mType, err error".toList ++ ") {\n\tswitch raw ".toList ++ "{\n\tcase \"TestSym".toList ++ "bol3\":\n\t\treturn ".toList ++ "TestEnumTypeTest".toList ++ "Symbol3, nil\n\tca".toList ++ "se \"TestSymbol1\"".toList ++ ":\n\t\treturn TestE".toList ++ "numTypeTestSymbo".toList ++ "l1, nil\n\t}\n\n\tret".toList ++ "urn TestEnumType".toList ++ "TestSymbol1, nil".toList ++ "\n\n}\n".toList)] = true := by decide +kernel
/-- v10/test/enum-multiple-namespaces/schema.avsc -/
def d_enum_multiple_namespaces : List Json := [(.obj [("fields".toList, (.arr [(.obj [("name".toList, (.str "fieldOne".toList)), ("type".toList, (.obj [("fields".toList, (.arr [(.obj [("name".toList, (.str "type".toList)), ("type".toList, (.obj [("name".toList, (.str "SomeEnum".toList)), ("symbols".toList, (.arr [(.str "A".toList), (.str "B".toList), (.str "C".toList)])), ("type".toList, (.str "enum".toList))]))])])), ("name".toList, (.str "TypeOne".toList)), ("namespace".toList, (.str "com.company.team".toList)), ("type".toList, (.str "record".toList))]))]), (.obj [("name".toList, (.str "fieldTwo".toList)), ("type".toList, (.obj [("fields".toList, (.arr [(.obj [("name".toList, (.str "type".toList)), ("type".toList, (.obj [("name".toList, (.str "SomeEnum".toList)), ("symbols".toList, (.arr [(.str "X".toList), (.str "Y".toList)])), ("type".toList, (.str "enum".toList))]))])])), ("name".toList, (.str "TypeTwo".toList)), ("namespace".toList, (.str "com.company.shared".toList)), ("type".toList, (.str "record".toList))]))])])), ("name".toList, (.str "SomeType".toList)), ("namespace".toList, (.str "com.company.team".toList)), ("type".toList, (.str "record".toList))])]
example : wrote (.namespaced false) true false d_enum_multiple_namespaces
    ["com_company_shared_some_enum.go", "com_company_shared_type_two.go", "com_company_shared_type_two_container.go", "com_company_team_some_enum.go", "com_company_team_some_type.go", "com_company_team_some_type_container.go", "com_company_team_type_one.go", "com_company_team_type_one_container.go"] = true := by decide +kernel
example : wroteIn (.namespaced false) true false d_enum_multiple_namespaces shown "com_company_shared_some_enum.go" [("type ComCompanyS".toList ++ "haredSomeEnum in".toList ++ "t32\n\nconst (\n\tCo".toList ++ "mCompanySharedSo".toList ++ "meEnumX ComCompa".toList ++ "nySharedSomeEnum".toList ++ " = 0\n\tComCompany".toList ++ "SharedSomeEnumY ".toList ++ "ComCompanyShared".toList ++ "SomeEnum = 1\n)\n".toList),
    ("func (e ComCompa".toList ++ "nySharedSomeEnum".toList ++ ") String() strin".toList ++ "g {\n\tswitch e {\n".toList ++ "\tcase ComCompany".toList ++ "SharedSomeEnumX:".toList ++ "\n\t\treturn \"X\"\n\tc".toList ++ "ase ComCompanySh".toList ++ "aredSomeEnumY:\n\t".toList ++ "\treturn \"Y\"\n\t}\n\t".toList ++ "return \"unknown\"".toList ++ "\n}\n".toList),
    ("func NewComCompa".toList ++ "nySharedSomeEnum".toList ++ "Value(raw string".toList ++ ") (r ComCompanyS".toList ++ "haredSomeEnum, e".toList ++ "rr error) {\n\tswi".toList ++ "tch raw {\n\tcase ".toList ++ "\"X\":\n\t\treturn Co".toList ++ "mCompanySharedSo".toList ++ "meEnumX, nil\n\tca".toList ++ "se \"Y\":\n\t\treturn".toList ++ " ComCompanyShare".toList ++ "dSomeEnumY, nil\n".toList ++ "\t}\n\n\treturn -1, ".toList ++ "fmt.Errorf(\"inva".toList ++ "lid value for Co".toList ++ "mCompanySharedSo".toList ++ "meEnum: '%s'\", r".toList ++ "aw)\n\n}\n".toList)] = true := by decide +kernel
example : wroteIn (.namespaced false) true false d_enum_multiple_namespaces shown "com_company_shared_type_two.go" [("\ntype ComCompany".toList ++ "SharedTypeTwo st".toList ++ "ruct {\n\tType Com".toList ++ "CompanySharedSom".toList ++ "eEnum `json:\"typ".toList ++ "e\"`\n}\n".toList),
    ("const ComCompany".toList ++ "SharedTypeTwoAvr".toList ++ "oCRC64Fingerprin".toList ++ "t = \"rG\\xf7\\xb2\\".toList ++ "x8f\\xac|\\x98\"\n".toList),
    ("func (r ComCompa".toList ++ "nySharedTypeTwo)".toList ++ " SchemaName() st".toList ++ "ring {\n\treturn \"".toList ++ "com.company.shar".toList ++ "ed.TypeTwo\"\n}\n".toList)] = true := by decide +kernel
example : wroteIn (.namespaced false) true false d_enum_multiple_namespaces shown "com_company_team_some_enum.go" [("type ComCompanyT".toList ++ "eamSomeEnum int3".toList ++ "2\n\nconst (\n\tComC".toList ++ "ompanyTeamSomeEn".toList ++ "umA ComCompanyTe".toList ++ "amSomeEnum = 0\n\t".toList ++ "ComCompanyTeamSo".toList ++ "meEnumB ComCompa".toList ++ "nyTeamSomeEnum =".toList ++ " 1\n\tComCompanyTe".toList ++ "amSomeEnumC ComC".toList ++ "ompanyTeamSomeEn".toList ++ "um = 2\n)\n".toList),
    ("func (e ComCompa".toList ++ "nyTeamSomeEnum) ".toList ++ "String() string ".toList ++ "{\n\tswitch e {\n\tc".toList ++ "ase ComCompanyTe".toList ++ "amSomeEnumA:\n\t\tr".toList ++ "eturn \"A\"\n\tcase ".toList ++ "ComCompanyTeamSo".toList ++ "meEnumB:\n\t\tretur".toList ++ "n \"B\"\n\tcase ComC".toList ++ "ompanyTeamSomeEn".toList ++ "umC:\n\t\treturn \"C".toList ++ "\"\n\t}\n\treturn \"un".toList ++ "known\"\n}\n".toList),
    ("func NewComCompa".toList ++ "nyTeamSomeEnumVa".toList ++ "lue(raw string) ".toList ++ "(r ComCompanyTea".toList ++ "mSomeEnum, err e".toList ++ "rror) {\n\tswitch ".toList ++ "raw {\n\tcase \"A\":".toList ++ "\n\t\treturn ComCom".toList ++ "panyTeamSomeEnum".toList ++ "A, nil\n\tcase \"B\"".toList ++ ":\n\t\treturn ComCo".toList ++ "mpanyTeamSomeEnu".toList ++ "mB, nil\n\tcase \"C".toList ++ "\":\n\t\treturn ComC".toList ++ "ompanyTeamSomeEn".toList ++ "umC, nil\n\t}\n\n\tre".toList ++ "turn -1, fmt.Err".toList ++ "orf(\"invalid val".toList ++ "ue for ComCompan".toList ++ "yTeamSomeEnum: '".toList ++ "%s'\", raw)\n\n}\n".toList)] = true := by decide +kernel
example : wroteIn (.namespaced false) true false d_enum_multiple_namespaces shown "com_company_team_some_type.go" [("\ntype ComCompany".toList ++ "TeamSomeType str".toList ++ "uct {\n\tFieldOne ".toList ++ "ComCompanyTeamTy".toList ++ "peOne `json:\"fie".toList ++ "ldOne\"`\n\n\tFieldT".toList ++ "wo ComCompanySha".toList ++ "redTypeTwo `json".toList ++ ":\"fieldTwo\"`\n}\n".toList),
    ("const ComCompany".toList ++ "TeamSomeTypeAvro".toList ++ "CRC64Fingerprint".toList ++ " = \"0\\xc0\\xc0\\xb".toList ++ "60N\\xc0\\xf6\"\n".toList),
    ("func (r ComCompa".toList ++ "nyTeamSomeType) ".toList ++ "SchemaName() str".toList ++ "ing {\n\treturn \"c".toList ++ "om.company.team.".toList ++ "SomeType\"\n}\n".toList)] = true := by decide +kernel
example : wroteIn (.namespaced false) true false d_enum_multiple_namespaces shown "com_company_team_type_one.go" [("\ntype ComCompany".toList ++ "TeamTypeOne stru".toList ++ "ct {\n\tType ComCo".toList ++ "mpanyTeamSomeEnu".toList ++ "m `json:\"type\"`\n".toList ++ "}\n".toList),
    ("const ComCompany".toList ++ "TeamTypeOneAvroC".toList ++ "RC64Fingerprint ".toList ++ "= \"\\xc1b\\xb9\\x05".toList ++ "Y9\\xcf|\"\n".toList),
    ("func (r ComCompa".toList ++ "nyTeamTypeOne) S".toList ++ "chemaName() stri".toList ++ "ng {\n\treturn \"co".toList ++ "m.company.team.T".toList ++ "ypeOne\"\n}\n".toList)] = true := by decide +kernel
/-- v10/test/enum-removed/schema.avsc -/
def d_enum_removed : List Json := [(.obj [("fields".toList, (.arr [(.obj [("name".toList, (.str "stringField".toList)), ("type".toList, (.str "string".toList))]), (.obj [("default".toList, (.str "testSymbol3".toList)), ("name".toList, (.str "EnumField".toList)), ("type".toList, (.obj [("doc".toList, (.str "Test \nenum".toList)), ("name".toList, (.str "TestEnumType".toList)), ("symbols".toList, (.arr [(.str "TestSymbol1".toList), (.str "testSymbol2".toList), (.str "testSymbol3".toList)])), ("type".toList, (.str "enum".toList))]))])])), ("name".toList, (.str "EnumTestRecord".toList)), ("type".toList, (.str "record".toList))])]
example : wrote .simple true false d_enum_removed
    ["enum_test_record.go", "enum_test_record_container.go", "test_enum_type.go"] = true := by decide +kernel
/-- v10/test/enum-removed/evolution.avsc -/
def d_enum_removed_evolution : List Json := [(.obj [("fields".toList, (.arr [(.obj [("name".toList, (.str "stringField".toList)), ("type".toList, (.str "string".toList))])])), ("name".toList, (.str "EnumTestRecord".toList)), ("type".toList, (.str "record".toList))])]
example : wrote .simple true false d_enum_removed_evolution
    ["enum_test_record.go", "enum_test_record_container.go"] = true := by decide +kernel
/-- v10/test/enum/schema.avsc -/
def d_enum : List Json := [(.obj [("fields".toList, (.arr [(.obj [("default".toList, (.str "testSymbol3".toList)), ("name".toList, (.str "EnumField".toList)), ("type".toList, (.obj [("doc".toList, (.str "Test \nenum".toList)), ("name".toList, (.str "TestEnumType".toList)), ("symbols".toList, (.arr [(.str "TestSymbol1".toList), (.str "testSymbol2".toList), (.str "testSymbol3".toList)])), ("type".toList, (.str "enum".toList))]))])])), ("name".toList, (.str "EnumTestRecord".toList)), ("type".toList, (.str "record".toList))])]
example : wrote .simple true false d_enum
    ["enum_test_record.go", "enum_test_record_container.go", "test_enum_type.go"] = true := by decide +kernel
/-- v10/test/evolve-union/schema.avsc -/
def d_evolve_union : List Json := [(.obj [("fields".toList, (.arr [(.obj [("name".toList, (.str "a".toList)), ("type".toList, (.str "string".toList))]), (.obj [("default".toList, .null), ("name".toList, (.str "id".toList)), ("type".toList, (.arr [(.str "null".toList), (.str "int".toList)]))]), (.obj [("default".toList, .null), ("name".toList, (.str "name".toList)), ("type".toList, (.arr [(.str "null".toList), (.str "string".toList)]))])])), ("name".toList, (.str "UnionRecord".toList)), ("type".toList, (.str "record".toList))])]
example : wrote .simple true false d_evolve_union
    ["union_null_int.go", "union_null_string.go", "union_record.go", "union_record_container.go"] = true := by decide +kernel
/-- v10/test/evolve-union/evolution.avsc -/
def d_evolve_union_evolution : List Json := [(.obj [("fields".toList, (.arr [(.obj [("name".toList, (.str "a".toList)), ("type".toList, (.arr [(.str "null".toList), (.str "string".toList)]))]), (.obj [("name".toList, (.str "name".toList)), ("type".toList, (.str "string".toList))])])), ("name".toList, (.str "UnionRecord".toList)), ("type".toList, (.str "record".toList))])]
example : wrote .simple true false d_evolve_union_evolution
    ["union_null_string.go", "union_record.go", "union_record_container.go"] = true := by decide +kernel
/-- v10/test/fixed-multiple-namespaces/schema.avsc -/
def d_fixed_multiple_namespaces : List Json := [(.obj [("fields".toList, (.arr [(.obj [("name".toList, (.str "fixedFieldOne".toList)), ("type".toList, (.obj [("name".toList, (.str "ConflictingFixedType".toList)), ("namespace".toList, (.str "com.company.team".toList)), ("size".toList, (.num 1)), ("type".toList, (.str "fixed".toList))]))]), (.obj [("name".toList, (.str "fixedFieldTwo".toList)), ("type".toList, (.obj [("name".toList, (.str "ConflictingFixedType".toList)), ("namespace".toList, (.str "com.company.shared".toList)), ("size".toList, (.num 2)), ("type".toList, (.str "fixed".toList))]))])])), ("name".toList, (.str "ConflictingNamespaceFixedTestRecord".toList)), ("type".toList, (.str "record".toList))])]
example : wrote (.namespaced false) true false d_fixed_multiple_namespaces
    ["com_company_shared_conflicting_fixed_type.go", "com_company_team_conflicting_fixed_type.go", "conflicting_namespace_fixed_test_record.go", "conflicting_namespace_fixed_test_record_container.go"] = true := by decide +kernel
/-- v10/test/fixed/schema.avsc -/
def d_fixed : List Json := [(.obj [("fields".toList, (.arr [(.obj [("name".toList, (.str "FixedField".toList)), ("type".toList, (.obj [("name".toList, (.str "TestFixedType".toList)), ("size".toList, (.num 12)), ("type".toList, (.str "fixed".toList))]))]), (.obj [("name".toList, (.str "AnotherFixed".toList)), ("type".toList, (.str "TestFixedType".toList))])])), ("name".toList, (.str "FixedTestRecord".toList)), ("type".toList, (.str "record".toList))])]
example : wrote .simple true false d_fixed
    ["fixed_test_record.go", "fixed_test_record_container.go", "test_fixed_type.go"] = true := by decide +kernel
example : wroteIn .simple true false d_fixed shown "fixed_test_record.go" [("\ntype FixedTestR".toList ++ "ecord struct {\n\t".toList ++ "FixedField TestF".toList ++ "ixedType `json:\"".toList ++ "FixedField\"`\n\n\tA".toList ++ "notherFixed Test".toList ++ "FixedType `json:".toList ++ "\"AnotherFixed\"`\n".toList ++ "}\n".toList),
    ("const FixedTestR".toList ++ "ecordAvroCRC64Fi".toList ++ "ngerprint = \"\\xb".toList ++ "aK\\xf9~\\x1f\\xc0\\".toList ++ "xf1R\"\n".toList),
    ("func (r FixedTes".toList ++ "tRecord) SchemaN".toList ++ "ame() string {\n\t".toList ++ "return \"FixedTes".toList ++ "tRecord\"\n}\n".toList)] = true := by decide +kernel
example : wroteIn .simple true false d_fixed shown "test_fixed_type.go" [("type TestFixedTy".toList ++ "pe [12]byte\n".toList)] = true := by decide +kernel
/-- v10/test/go-struct-tags/schema.avsc -/
def d_go_struct_tags : List Json := [(.obj [("fields".toList, (.arr [(.obj [("golang.tags".toList, (.str "validate:\"true\"".toList)), ("name".toList, (.str "productName".toList)), ("type".toList, (.str "string".toList))])])), ("name".toList, (.str "StructTag".toList)), ("type".toList, (.str "record".toList))])]
example : wrote .simple true false d_go_struct_tags
    ["struct_tag.go", "struct_tag_container.go"] = true := by decide +kernel
example : wroteIn .simple true false d_go_struct_tags shown "struct_tag.go" [("\ntype StructTag ".toList ++ "struct {\n\tProduc".toList ++ "tName string `va".toList ++ "lidate:\"true\" js".toList ++ "on:\"productName\"".toList ++ "`\n}\n".toList),
    ("const StructTagA".toList ++ "vroCRC64Fingerpr".toList ++ "int = \"\\x92\\xb7D".toList ++ "k\\xe2\\x1e\\xef\\xf".toList ++ "c\"\n".toList),
    ("func (r StructTa".toList ++ "g) SchemaName() ".toList ++ "string {\n\treturn".toList ++ " \"StructTag\"\n}\n".toList)] = true := by decide +kernel
/-- v10/test/lax-names/schema.avsc -/
def d_lax_names : List Json := [(.obj [("fields".toList, (.arr [(.obj [("name".toList, (.str "data".toList)), ("type".toList, (.obj [("items".toList, (.arr [(.obj [("fields".toList, (.arr [(.obj [("name".toList, (.str "id".toList)), ("type".toList, (.str "string".toList))])])), ("name".toList, (.str "RecordFoo".toList)), ("type".toList, (.str "record".toList))]), (.obj [("fields".toList, (.arr [(.obj [("name".toList, (.str "id".toList)), ("type".toList, (.str "string".toList))])])), ("name".toList, (.str "RecordBar".toList)), ("type".toList, (.str "record".toList))])])), ("type".toList, (.str "array".toList))]))])])), ("name".toList, (.str "RecordSchema".toList)), ("type".toList, (.str "record".toList))])]
example : wrote .simple true false d_lax_names
    ["array_union_record_foo_record_bar.go", "record_bar.go", "record_bar_container.go", "record_foo.go", "record_foo_container.go", "record_schema.go", "record_schema_container.go", "union_record_foo_record_bar.go"] = true := by decide +kernel
example : wroteIn .simple true false d_lax_names shown "record_bar.go" [("\ntype RecordBar ".toList ++ "struct {\n\tId str".toList ++ "ing `json:\"id\"`\n".toList ++ "}\n".toList),
    ("const RecordBarA".toList ++ "vroCRC64Fingerpr".toList ++ "int = \"0\\x99\\x1e".toList ++ "\\\"\\x92\\xe1\\x82{\"".toList ++ "\n".toList),
    ("func (r RecordBa".toList ++ "r) SchemaName() ".toList ++ "string {\n\treturn".toList ++ " \"RecordBar\"\n}\n".toList)] = true := by decide +kernel
example : wroteIn .simple true false d_lax_names shown "record_foo.go" [("\ntype RecordFoo ".toList ++ "struct {\n\tId str".toList ++ "ing `json:\"id\"`\n".toList ++ "}\n".toList),
    ("const RecordFooA".toList ++ "vroCRC64Fingerpr".toList ++ "int = \"\\x94\\f\\x1".toList ++ "4v\\xb3\\x98ߴ\"\n".toList),
    ("func (r RecordFo".toList ++ "o) SchemaName() ".toList ++ "string {\n\treturn".toList ++ " \"RecordFoo\"\n}\n".toList)] = true := by decide +kernel
example : wroteIn .simple true false d_lax_names shown "record_schema.go" [("\ntype RecordSche".toList ++ "ma struct {\n\tDat".toList ++ "a []UnionRecordF".toList ++ "ooRecordBar `jso".toList ++ "n:\"data\"`\n}\n".toList),
    ("const RecordSche".toList ++ "maAvroCRC64Finge".toList ++ "rprint = \"\\xb8\\x".toList ++ "ce$\\xde\\v\\xd5\\x0".toList ++ "0<\"\n".toList),
    ("func (r RecordSc".toList ++ "hema) SchemaName".toList ++ "() string {\n\tret".toList ++ "urn \"RecordSchem".toList ++ "a\"\n}\n".toList)] = true := by decide +kernel
example : wroteIn .simple true false d_lax_names shown "union_record_foo_record_bar.go" [("type UnionRecord".toList ++ "FooRecordBar str".toList ++ "uct {\n\tRecordFoo".toList ++ " RecordFoo\n\tReco".toList ++ "rdBar RecordBar\n".toList ++ "\tUnionType Union".toList ++ "RecordFooRecordB".toList ++ "arTypeEnum\n}\n".toList),
    ("type UnionRecord".toList ++ "FooRecordBarType".toList ++ "Enum int\n\nconst ".toList ++ "(\n\tUnionRecordFo".toList ++ "oRecordBarTypeEn".toList ++ "umRecordFoo Unio".toList ++ "nRecordFooRecord".toList ++ "BarTypeEnum = 0\n".toList ++ "\n\tUnionRecordFoo".toList ++ "RecordBarTypeEnu".toList ++ "mRecordBar Union".toList ++ "RecordFooRecordB".toList ++ "arTypeEnum = 1\n)".toList ++ "\n".toList)] = true := by decide +kernel
/-- v10/test/maps-union/schema.avsc -/
def d_maps_union : List Json := [(.obj [("fields".toList, (.arr [(.obj [("name".toList, (.str "IntField".toList)), ("type".toList, (.obj [("type".toList, (.str "map".toList)), ("values".toList, (.arr [(.str "null".toList), (.str "int".toList)]))]))])])), ("name".toList, (.str "MapTestRecord".toList)), ("type".toList, (.str "record".toList))])]
example : wrote .simple true false d_maps_union
    ["map_test_record.go", "map_test_record_container.go", "map_union_null_int.go", "union_null_int.go"] = true := by decide +kernel
/-- v10/test/maps/schema.avsc -/
def d_maps : List Json := [(.obj [("fields".toList, (.arr [(.obj [("default".toList, (.obj [("default".toList, (.num 1))])), ("name".toList, (.str "IntField".toList)), ("type".toList, (.obj [("type".toList, (.str "map".toList)), ("values".toList, (.str "int".toList))]))]), (.obj [("default".toList, (.obj [("default".toList, (.num 2))])), ("name".toList, (.str "LongField".toList)), ("type".toList, (.obj [("type".toList, (.str "map".toList)), ("values".toList, (.str "long".toList))]))]), (.obj [("default".toList, (.obj [("default".toList, (.num 1000))])), ("name".toList, (.str "DoubleField".toList)), ("type".toList, (.obj [("type".toList, (.str "map".toList)), ("values".toList, (.str "double".toList))]))]), (.obj [("default".toList, (.obj [("default".toList, (.str "defaultstring".toList))])), ("name".toList, (.str "StringField".toList)), ("type".toList, (.obj [("type".toList, (.str "map".toList)), ("values".toList, (.str "string".toList))]))]), (.obj [("default".toList, (.obj [("default".toList, (.num 236))])), ("name".toList, (.str "FloatField".toList)), ("type".toList, (.obj [("type".toList, (.str "map".toList)), ("values".toList, (.str "float".toList))]))]), (.obj [("default".toList, (.obj [("default".toList, (.bool true))])), ("name".toList, (.str "BoolField".toList)), ("type".toList, (.obj [("type".toList, (.str "map".toList)), ("values".toList, (.str "boolean".toList))]))]), (.obj [("default".toList, (.obj [("default".toList, (.str "\x03\x0fÞ".toList))])), ("name".toList, (.str "BytesField".toList)), ("type".toList, (.obj [("type".toList, (.str "map".toList)), ("values".toList, (.str "bytes".toList))]))])])), ("name".toList, (.str "MapTestRecord".toList)), ("type".toList, (.str "record".toList))])]
example : wrote .simple true false d_maps
    ["bytes.go", "map_bool.go", "map_bytes.go", "map_double.go", "map_float.go", "map_int.go", "map_long.go", "map_string.go", "map_test_record.go", "map_test_record_container.go"] = true := by decide +kernel
/-- v10/test/name-conflict/schema.avsc -/
def d_name_conflict : List Json := [(.obj [("fields".toList, (.arr [(.obj [("name".toList, (.str "Schema".toList)), ("type".toList, (.str "boolean".toList))]), (.obj [("name".toList, (.str "Serialize".toList)), ("type".toList, (.str "boolean".toList))]), (.obj [("name".toList, (.str "SchemaName".toList)), ("type".toList, (.str "boolean".toList))]), (.obj [("name".toList, (.str "MarshalJSON".toList)), ("type".toList, (.str "boolean".toList))]), (.obj [("name".toList, (.str "UnmarshalJSON".toList)), ("type".toList, (.str "boolean".toList))]), (.obj [("name".toList, (.str "AvroCRC64Fingerprint".toList)), ("type".toList, (.str "boolean".toList))]), (.obj [("name".toList, (.str "SetBoolean".toList)), ("type".toList, (.str "boolean".toList))]), (.obj [("name".toList, (.str "SetInt".toList)), ("type".toList, (.str "boolean".toList))]), (.obj [("name".toList, (.str "SetLong".toList)), ("type".toList, (.str "boolean".toList))]), (.obj [("name".toList, (.str "SetFloat".toList)), ("type".toList, (.str "boolean".toList))]), (.obj [("name".toList, (.str "SetDouble".toList)), ("type".toList, (.str "boolean".toList))]), (.obj [("name".toList, (.str "SetBytes".toList)), ("type".toList, (.str "boolean".toList))]), (.obj [("name".toList, (.str "SetString".toList)), ("type".toList, (.str "boolean".toList))]), (.obj [("name".toList, (.str "Get".toList)), ("type".toList, (.str "boolean".toList))]), (.obj [("name".toList, (.str "SetDefault".toList)), ("type".toList, (.str "boolean".toList))]), (.obj [("name".toList, (.str "AppendMap".toList)), ("type".toList, (.str "boolean".toList))]), (.obj [("name".toList, (.str "AppendArray".toList)), ("type".toList, (.str "boolean".toList))]), (.obj [("name".toList, (.str "NullField".toList)), ("type".toList, (.str "boolean".toList))]), (.obj [("name".toList, (.str "Finalize".toList)), ("type".toList, (.str "boolean".toList))])])), ("name".toList, (.str "NameConflictTestRecord".toList)), ("type".toList, (.str "record".toList))])]
example : wrote .simple true false d_name_conflict
    ["name_conflict_test_record.go", "name_conflict_test_record_container.go"] = true := by decide +kernel
/-- v10/test/namespace-full/schema.avsc -/
def d_namespace_full : List Json := [(.obj [("doc".toList, (.str "GoGen test".toList)), ("fields".toList, (.arr [(.obj [("default".toList, .null), ("doc".toList, (.str "Core data information required for any event".toList)), ("name".toList, (.str "header".toList)), ("type".toList, (.arr [(.str "null".toList), (.obj [("doc".toList, (.str "Common information related to the event which must be included in any clean event".toList)), ("fields".toList, (.arr [(.obj [("default".toList, .null), ("doc".toList, (.str "Unique identifier for the event used for de-duplication and tracing.".toList)), ("name".toList, (.str "uuid".toList)), ("type".toList, (.arr [(.str "null".toList), (.obj [("doc".toList, (.str "A Universally Unique Identifier, in canonical form in lowercase. Example: de305d54-75b4-431b-adb2-eb6b9e546014".toList)), ("fields".toList, (.arr [(.obj [("default".toList, (.str "".toList)), ("name".toList, (.str "uuid".toList)), ("type".toList, (.str "string".toList))])])), ("name".toList, (.str "UUID".toList)), ("namespace".toList, (.str "headerworks.datatype".toList)), ("type".toList, (.str "record".toList))])]))]), (.obj [("default".toList, .null), ("doc".toList, (.str "Fully qualified name of the host that generated the event that generated the data.".toList)), ("name".toList, (.str "hostname".toList)), ("type".toList, (.arr [(.str "null".toList), (.str "string".toList)]))]), (.obj [("default".toList, .null), ("doc".toList, (.str "Trace information not redundant with this object".toList)), ("name".toList, (.str "trace".toList)), ("type".toList, (.arr [(.str "null".toList), (.obj [("doc".toList, (.str "Trace".toList)), ("fields".toList, (.arr [(.obj [("default".toList, .null), ("doc".toList, (.str "Trace Identifier".toList)), ("name".toList, (.str "traceId".toList)), ("type".toList, (.arr [(.str "null".toList), (.str "headerworks.datatype.UUID".toList)]))])])), ("name".toList, (.str "Trace".toList)), ("type".toList, (.str "record".toList))])]))])])), ("name".toList, (.str "Data".toList)), ("namespace".toList, (.str "headerworks".toList)), ("type".toList, (.str "record".toList))])]))]), (.obj [("default".toList, .null), ("doc".toList, (.str "Core data information required for any event".toList)), ("name".toList, (.str "body".toList)), ("type".toList, (.arr [(.str "null".toList), (.obj [("doc".toList, (.str "Common information related to the event which must be included in any clean event".toList)), ("fields".toList, (.arr [(.obj [("default".toList, .null), ("doc".toList, (.str "Unique identifier for the event used for de-duplication and tracing.".toList)), ("name".toList, (.str "uuid".toList)), ("type".toList, (.arr [(.str "null".toList), (.obj [("doc".toList, (.str "A Universally Unique Identifier, in canonical form in lowercase. Example: de305d54-75b4-431b-adb2-eb6b9e546014".toList)), ("fields".toList, (.arr [(.obj [("default".toList, (.str "".toList)), ("name".toList, (.str "uuid".toList)), ("type".toList, (.str "string".toList))])])), ("name".toList, (.str "UUID".toList)), ("namespace".toList, (.str "bodyworks.datatype".toList)), ("type".toList, (.str "record".toList))])]))]), (.obj [("default".toList, .null), ("doc".toList, (.str "Fully qualified name of the host that generated the event that generated the data.".toList)), ("name".toList, (.str "hostname".toList)), ("type".toList, (.arr [(.str "null".toList), (.str "string".toList)]))]), (.obj [("default".toList, .null), ("doc".toList, (.str "Trace information not redundant with this object".toList)), ("name".toList, (.str "trace".toList)), ("type".toList, (.arr [(.str "null".toList), (.obj [("doc".toList, (.str "Trace".toList)), ("fields".toList, (.arr [(.obj [("default".toList, .null), ("doc".toList, (.str "Trace Identifier".toList)), ("name".toList, (.str "traceId".toList)), ("type".toList, (.arr [(.str "null".toList), (.str "headerworks.datatype.UUID".toList)]))])])), ("name".toList, (.str "Trace".toList)), ("type".toList, (.str "record".toList))])]))])])), ("name".toList, (.str "Data".toList)), ("namespace".toList, (.str "bodyworks".toList)), ("type".toList, (.str "record".toList))])]))])])), ("name".toList, (.str "sample".toList)), ("namespace".toList, (.str "com.avro.test".toList)), ("type".toList, (.str "record".toList))])]
example : wrote (.namespaced false) true false d_namespace_full
    ["bodyworks_data.go", "bodyworks_data_container.go", "bodyworks_datatype_uuid.go", "bodyworks_datatype_uuid_container.go", "bodyworks_trace.go", "bodyworks_trace_container.go", "com_avro_test_sample.go", "com_avro_test_sample_container.go", "headerworks_data.go", "headerworks_data_container.go", "headerworks_datatype_uuid.go", "headerworks_datatype_uuid_container.go", "headerworks_trace.go", "headerworks_trace_container.go", "union_null_bodyworks_data.go", "union_null_bodyworks_datatype_uuid.go", "union_null_bodyworks_trace.go", "union_null_headerworks_data.go", "union_null_headerworks_datatype_uuid.go", "union_null_headerworks_trace.go", "union_null_string.go"] = true := by decide +kernel
/-- v10/test/namespace-short/schema.avsc -/
def d_namespace_short : List Json := [(.obj [("doc".toList, (.str "GoGen test".toList)), ("fields".toList, (.arr [(.obj [("default".toList, .null), ("doc".toList, (.str "Core data information required for any event".toList)), ("name".toList, (.str "header".toList)), ("type".toList, (.arr [(.str "null".toList), (.obj [("doc".toList, (.str "Common information related to the event which must be included in any clean event".toList)), ("fields".toList, (.arr [(.obj [("default".toList, .null), ("doc".toList, (.str "Unique identifier for the event used for de-duplication and tracing.".toList)), ("name".toList, (.str "uuid".toList)), ("type".toList, (.arr [(.str "null".toList), (.obj [("doc".toList, (.str "A Universally Unique Identifier, in canonical form in lowercase. Example: de305d54-75b4-431b-adb2-eb6b9e546014".toList)), ("fields".toList, (.arr [(.obj [("default".toList, (.str "".toList)), ("name".toList, (.str "uuid".toList)), ("type".toList, (.str "string".toList))])])), ("name".toList, (.str "UUID".toList)), ("namespace".toList, (.str "headerworks.datatype".toList)), ("type".toList, (.str "record".toList))])]))]), (.obj [("default".toList, .null), ("doc".toList, (.str "Fully qualified name of the host that generated the event that generated the data.".toList)), ("name".toList, (.str "hostname".toList)), ("type".toList, (.arr [(.str "null".toList), (.str "string".toList)]))]), (.obj [("default".toList, .null), ("doc".toList, (.str "Trace information not redundant with this object".toList)), ("name".toList, (.str "trace".toList)), ("type".toList, (.arr [(.str "null".toList), (.obj [("doc".toList, (.str "Trace".toList)), ("fields".toList, (.arr [(.obj [("default".toList, .null), ("doc".toList, (.str "Trace Identifier".toList)), ("name".toList, (.str "traceId".toList)), ("type".toList, (.arr [(.str "null".toList), (.str "headerworks.datatype.UUID".toList)]))])])), ("name".toList, (.str "Trace".toList)), ("type".toList, (.str "record".toList))])]))])])), ("name".toList, (.str "Data".toList)), ("namespace".toList, (.str "headerworks".toList)), ("type".toList, (.str "record".toList))])]))]), (.obj [("default".toList, .null), ("doc".toList, (.str "Core data information required for any event".toList)), ("name".toList, (.str "body".toList)), ("type".toList, (.arr [(.str "null".toList), (.obj [("doc".toList, (.str "Common information related to the event which must be included in any clean event".toList)), ("fields".toList, (.arr [(.obj [("default".toList, .null), ("doc".toList, (.str "Unique identifier for the event used for de-duplication and tracing.".toList)), ("name".toList, (.str "uuid".toList)), ("type".toList, (.arr [(.str "null".toList), (.obj [("doc".toList, (.str "A Universally Unique Identifier, in canonical form in lowercase. Example: de305d54-75b4-431b-adb2-eb6b9e546014".toList)), ("fields".toList, (.arr [(.obj [("default".toList, (.str "".toList)), ("name".toList, (.str "uuid".toList)), ("type".toList, (.str "string".toList))])])), ("name".toList, (.str "UUID".toList)), ("namespace".toList, (.str "bodyworks.datatype".toList)), ("type".toList, (.str "record".toList))])]))]), (.obj [("default".toList, .null), ("doc".toList, (.str "Fully qualified name of the host that generated the event that generated the data.".toList)), ("name".toList, (.str "hostname".toList)), ("type".toList, (.arr [(.str "null".toList), (.str "string".toList)]))]), (.obj [("default".toList, .null), ("doc".toList, (.str "Trace information not redundant with this object".toList)), ("name".toList, (.str "trace".toList)), ("type".toList, (.arr [(.str "null".toList), (.obj [("doc".toList, (.str "Trace".toList)), ("fields".toList, (.arr [(.obj [("default".toList, .null), ("doc".toList, (.str "Trace Identifier".toList)), ("name".toList, (.str "traceId".toList)), ("type".toList, (.arr [(.str "null".toList), (.str "headerworks.datatype.UUID".toList)]))])])), ("name".toList, (.str "Trace".toList)), ("type".toList, (.str "record".toList))])]))])])), ("name".toList, (.str "Data".toList)), ("namespace".toList, (.str "bodyworks".toList)), ("type".toList, (.str "record".toList))])]))])])), ("name".toList, (.str "sample".toList)), ("namespace".toList, (.str "com.avro.test".toList)), ("type".toList, (.str "record".toList))])]
example : wrote (.namespaced true) true false d_namespace_short
    ["bodyworks_data.go", "bodyworks_data_container.go", "bodyworks_trace.go", "bodyworks_trace_container.go", "datatype_uuid.go", "datatype_uuid_container.go", "headerworks_data.go", "headerworks_data_container.go", "headerworks_trace.go", "headerworks_trace_container.go", "test_sample.go", "test_sample_container.go", "union_null_bodyworks_data.go", "union_null_bodyworks_trace.go", "union_null_datatype_uuid.go", "union_null_headerworks_data.go", "union_null_headerworks_trace.go", "union_null_string.go"] = true := by decide +kernel
example : wroteIn (.namespaced true) true false d_namespace_short shown "bodyworks_data.go" [("\ntype BodyworksD".toList ++ "ata struct {\n\t//".toList ++ " Unique identifi".toList ++ "er for the event".toList ++ " used for de-dup".toList ++ "lication and tra".toList ++ "cing.\n\tUuid *Uni".toList ++ "onNullDatatypeUU".toList ++ "ID `json:\"uuid\"`".toList ++ "\n\t// Fully quali".toList ++ "fied name of the".toList ++ " host that gener".toList ++ "ated the event t".toList ++ "hat generated th".toList ++ "e data.\n\tHostnam".toList ++ "e *UnionNullStri".toList ++ "ng `json:\"hostna".toList ++ "me\"`\n\t// Trace i".toList ++ "nformation not r".toList ++ "edundant with th".toList ++ "is object\n\tTrace".toList ++ " *UnionNullBodyw".toList ++ "orksTrace `json:".toList ++ "\"trace\"`\n}\n".toList),
    ("const BodyworksD".toList ++ "ataAvroCRC64Fing".toList ++ "erprint = \"\\xa5\\".toList ++ "xec\\x1f\\xf5k\\x15".toList ++ "\\xc1!\"\n".toList),
    ("func (r Bodywork".toList ++ "sData) SchemaNam".toList ++ "e() string {\n\tre".toList ++ "turn \"bodyworks.".toList ++ "Data\"\n}\n".toList)] = true := by decide +kernel
example : wroteIn (.namespaced true) true false d_namespace_short shown "bodyworks_trace.go" [("\ntype BodyworksT".toList ++ "race struct {\n\t/".toList ++ "/ Trace Identifi".toList ++ "er\n\tTraceId *Uni".toList ++ "onNullDatatypeUU".toList ++ "ID `json:\"traceI".toList ++ "d\"`\n}\n".toList),
    ("const BodyworksT".toList ++ "raceAvroCRC64Fin".toList ++ "gerprint = \"\\x83".toList ++ "<\\x8e\\xd5T\\xfc\\x".toList ++ "8d\\x94\"\n".toList),
    ("func (r Bodywork".toList ++ "sTrace) SchemaNa".toList ++ "me() string {\n\tr".toList ++ "eturn \"bodyworks".toList ++ ".Trace\"\n}\n".toList)] = true := by decide +kernel
example : wroteIn (.namespaced true) true false d_namespace_short shown "datatype_uuid.go" [("\ntype DatatypeUU".toList ++ "ID struct {\n\tUui".toList ++ "d string `json:\"".toList ++ "uuid\"`\n}\n".toList),
    ("const DatatypeUU".toList ++ "IDAvroCRC64Finge".toList ++ "rprint = \"\\xfc\\x".toList ++ "a43\\x98\\xee\\xe0p".toList ++ "\\xe2\"\n".toList),
    ("func (r Datatype".toList ++ "UUID) SchemaName".toList ++ "() string {\n\tret".toList ++ "urn \"bodyworks.d".toList ++ "atatype.UUID\"\n}\n".toList)] = true := by decide +kernel
example : wroteIn (.namespaced true) true false d_namespace_short shown "headerworks_data.go" [("\ntype Headerwork".toList ++ "sData struct {\n\t".toList ++ "// Unique identi".toList ++ "fier for the eve".toList ++ "nt used for de-d".toList ++ "uplication and t".toList ++ "racing.\n\tUuid *U".toList ++ "nionNullDatatype".toList ++ "UUID `json:\"uuid".toList ++ "\"`\n\t// Fully qua".toList ++ "lified name of t".toList ++ "he host that gen".toList ++ "erated the event".toList ++ " that generated ".toList ++ "the data.\n\tHostn".toList ++ "ame *UnionNullSt".toList ++ "ring `json:\"host".toList ++ "name\"`\n\t// Trace".toList ++ " information not".toList ++ " redundant with ".toList ++ "this object\n\tTra".toList ++ "ce *UnionNullHea".toList ++ "derworksTrace `j".toList ++ "son:\"trace\"`\n}\n".toList),
    ("const Headerwork".toList ++ "sDataAvroCRC64Fi".toList ++ "ngerprint = \"6<\\".toList ++ "xf6?EE\\xcd\\v\"\n".toList),
    ("func (r Headerwo".toList ++ "rksData) SchemaN".toList ++ "ame() string {\n\t".toList ++ "return \"headerwo".toList ++ "rks.Data\"\n}\n".toList)] = true := by decide +kernel
example : wroteIn (.namespaced true) true false d_namespace_short shown "headerworks_trace.go" [("\ntype Headerwork".toList ++ "sTrace struct {\n".toList ++ "\t// Trace Identi".toList ++ "fier\n\tTraceId *U".toList ++ "nionNullDatatype".toList ++ "UUID `json:\"trac".toList ++ "eId\"`\n}\n".toList),
    ("const Headerwork".toList ++ "sTraceAvroCRC64F".toList ++ "ingerprint = \"\\x".toList ++ "8a\\xdfu\\xe7˻\\xa6".toList ++ "\\xbc\"\n".toList),
    ("func (r Headerwo".toList ++ "rksTrace) Schema".toList ++ "Name() string {\n".toList ++ "\treturn \"headerw".toList ++ "orks.Trace\"\n}\n".toList)] = true := by decide +kernel
example : wroteIn (.namespaced true) true false d_namespace_short shown "test_sample.go" [("\ntype TestSample".toList ++ " struct {\n\t// Co".toList ++ "re data informat".toList ++ "ion required for".toList ++ " any event\n\tHead".toList ++ "er *UnionNullHea".toList ++ "derworksData `js".toList ++ "on:\"header\"`\n\t//".toList ++ " Core data infor".toList ++ "mation required ".toList ++ "for any event\n\tB".toList ++ "ody *UnionNullBo".toList ++ "dyworksData `jso".toList ++ "n:\"body\"`\n}\n".toList),
    ("const TestSample".toList ++ "AvroCRC64Fingerp".toList ++ "rint = \"\\xdf}\\x9".toList ++ "3 \\x19f\\x18\\n\"\n".toList),
    ("func (r TestSamp".toList ++ "le) SchemaName()".toList ++ " string {\n\tretur".toList ++ "n \"com.avro.test".toList ++ ".sample\"\n}\n".toList)] = true := by decide +kernel
example : wroteIn (.namespaced true) true false d_namespace_short shown "union_null_bodyworks_data.go" [("type UnionNullBo".toList ++ "dyworksData stru".toList ++ "ct {\n\tNull      ".toList ++ "    *types.NullV".toList ++ "al\n\tBodyworksDat".toList ++ "a BodyworksData\n".toList ++ "\tUnionType     U".toList ++ "nionNullBodywork".toList ++ "sDataTypeEnum\n}\n".toList),
    ("type UnionNullBo".toList ++ "dyworksDataTypeE".toList ++ "num int\n\nconst (".toList ++ "\n\tUnionNullBodyw".toList ++ "orksDataTypeEnum".toList ++ "BodyworksData Un".toList ++ "ionNullBodyworks".toList ++ "DataTypeEnum = 1".toList ++ "\n)\n".toList)] = true := by decide +kernel
example : wroteIn (.namespaced true) true false d_namespace_short shown "union_null_bodyworks_trace.go" [("type UnionNullBo".toList ++ "dyworksTrace str".toList ++ "uct {\n\tNull     ".toList ++ "      *types.Nul".toList ++ "lVal\n\tBodyworksT".toList ++ "race BodyworksTr".toList ++ "ace\n\tUnionType  ".toList ++ "    UnionNullBod".toList ++ "yworksTraceTypeE".toList ++ "num\n}\n".toList),
    ("type UnionNullBo".toList ++ "dyworksTraceType".toList ++ "Enum int\n\nconst ".toList ++ "(\n\tUnionNullBody".toList ++ "worksTraceTypeEn".toList ++ "umBodyworksTrace".toList ++ " UnionNullBodywo".toList ++ "rksTraceTypeEnum".toList ++ " = 1\n)\n".toList)] = true := by decide +kernel
example : wroteIn (.namespaced true) true false d_namespace_short shown "union_null_datatype_uuid.go" [("type UnionNullDa".toList ++ "tatypeUUID struc".toList ++ "t {\n\tNull       ".toList ++ "  *types.NullVal".toList ++ "\n\tDatatypeUUID D".toList ++ "atatypeUUID\n\tUni".toList ++ "onType    UnionN".toList ++ "ullDatatypeUUIDT".toList ++ "ypeEnum\n}\n".toList),
    ("type UnionNullDa".toList ++ "tatypeUUIDTypeEn".toList ++ "um int\n\nconst (\n".toList ++ "\tUnionNullDataty".toList ++ "peUUIDTypeEnumDa".toList ++ "tatypeUUID Union".toList ++ "NullDatatypeUUID".toList ++ "TypeEnum = 1\n)\n".toList)] = true := by decide +kernel
example : wroteIn (.namespaced true) true false d_namespace_short shown "union_null_headerworks_data.go" [("type UnionNullHe".toList ++ "aderworksData st".toList ++ "ruct {\n\tNull    ".toList ++ "        *types.N".toList ++ "ullVal\n\tHeaderwo".toList ++ "rksData Headerwo".toList ++ "rksData\n\tUnionTy".toList ++ "pe       UnionNu".toList ++ "llHeaderworksDat".toList ++ "aTypeEnum\n}\n".toList),
    ("type UnionNullHe".toList ++ "aderworksDataTyp".toList ++ "eEnum int\n\nconst".toList ++ " (\n\tUnionNullHea".toList ++ "derworksDataType".toList ++ "EnumHeaderworksD".toList ++ "ata UnionNullHea".toList ++ "derworksDataType".toList ++ "Enum = 1\n)\n".toList)] = true := by decide +kernel
example : wroteIn (.namespaced true) true false d_namespace_short shown "union_null_headerworks_trace.go" [("type UnionNullHe".toList ++ "aderworksTrace s".toList ++ "truct {\n\tNull   ".toList ++ "          *types".toList ++ ".NullVal\n\tHeader".toList ++ "worksTrace Heade".toList ++ "rworksTrace\n\tUni".toList ++ "onType        Un".toList ++ "ionNullHeaderwor".toList ++ "ksTraceTypeEnum\n".toList ++ "}\n".toList),
    ("type UnionNullHe".toList ++ "aderworksTraceTy".toList ++ "peEnum int\n\ncons".toList ++ "t (\n\tUnionNullHe".toList ++ "aderworksTraceTy".toList ++ "peEnumHeaderwork".toList ++ "sTrace UnionNull".toList ++ "HeaderworksTrace".toList ++ "TypeEnum = 1\n)\n".toList)] = true := by decide +kernel
example : wroteIn (.namespaced true) true false d_namespace_short shown "union_null_string.go" [("type UnionNullSt".toList ++ "ring struct {\n\tN".toList ++ "ull      *types.".toList ++ "NullVal\n\tString ".toList ++ "   string\n\tUnion".toList ++ "Type UnionNullSt".toList ++ "ringTypeEnum\n}\n".toList),
    ("type UnionNullSt".toList ++ "ringTypeEnum int".toList ++ "\n\nconst (\n\tUnion".toList ++ "NullStringTypeEn".toList ++ "umString UnionNu".toList ++ "llStringTypeEnum".toList ++ " = 1\n)\n".toList)] = true := by decide +kernel
/-- v10/test/nested-map-array/schema.avsc -/
def d_nested_map_array : List Json := [(.obj [("fields".toList, (.arr [(.obj [("name".toList, (.str "text".toList)), ("type".toList, (.str "string".toList))]), (.obj [("name".toList, (.str "RecursiveField".toList)), ("type".toList, (.obj [("type".toList, (.str "map".toList)), ("values".toList, (.obj [("items".toList, (.str "MapTestRecord".toList)), ("type".toList, (.str "array".toList))]))]))])])), ("name".toList, (.str "MapTestRecord".toList)), ("type".toList, (.str "record".toList))])]
example : wrote .simple true false d_nested_map_array
    ["array_map_test_record.go", "map_array_map_test_record.go", "map_test_record.go", "map_test_record_container.go"] = true := by decide +kernel
/-- v10/test/nested-maps/schema.avsc -/
def d_nested_maps : List Json := [(.obj [("fields".toList, (.arr [(.obj [("name".toList, (.str "MapOfMaps".toList)), ("type".toList, (.obj [("type".toList, (.str "map".toList)), ("values".toList, (.obj [("type".toList, (.str "map".toList)), ("values".toList, (.obj [("items".toList, (.str "string".toList)), ("type".toList, (.str "array".toList))]))]))]))])])), ("name".toList, (.str "NestedMap".toList)), ("type".toList, (.str "record".toList))])]
example : wrote .simple true false d_nested_maps
    ["array_string.go", "map_array_string.go", "map_map_array_string.go", "nested_map.go", "nested_map_container.go"] = true := by decide +kernel
/-- v10/test/nested/schema.avsc -/
def d_nested : List Json := [(.obj [("fields".toList, (.arr [(.obj [("name".toList, (.str "NumberField".toList)), ("type".toList, (.obj [("fields".toList, (.arr [(.obj [("name".toList, (.str "IntField".toList)), ("type".toList, (.str "int".toList))]), (.obj [("name".toList, (.str "LongField".toList)), ("type".toList, (.str "long".toList))]), (.obj [("name".toList, (.str "FloatField".toList)), ("type".toList, (.str "float".toList))]), (.obj [("name".toList, (.str "DoubleField".toList)), ("type".toList, (.str "double".toList))])])), ("name".toList, (.str "NumberRecord".toList)), ("type".toList, (.str "record".toList))]))]), (.obj [("name".toList, (.str "OtherField".toList)), ("type".toList, (.obj [("fields".toList, (.arr [(.obj [("name".toList, (.str "StringField".toList)), ("type".toList, (.str "string".toList))]), (.obj [("name".toList, (.str "BoolField".toList)), ("type".toList, (.str "boolean".toList))]), (.obj [("name".toList, (.str "BytesField".toList)), ("type".toList, (.str "bytes".toList))])])), ("name".toList, (.str "NestedRecord".toList)), ("type".toList, (.str "record".toList))]))])])), ("name".toList, (.str "NestedTestRecord".toList)), ("type".toList, (.str "record".toList))])]
example : wrote .simple true false d_nested
    ["bytes.go", "nested_record.go", "nested_record_container.go", "nested_test_record.go", "nested_test_record_container.go", "number_record.go", "number_record_container.go"] = true := by decide +kernel
/-- v10/test/primitive/schema.avsc -/
def d_primitive : List Json := [(.obj [("doc".toList, (.str "primitive\nrecord".toList)), ("fields".toList, (.arr [(.obj [("default".toList, (.num 12345689)), ("doc".toList, (.str "int\nfield".toList)), ("name".toList, (.str "IntField".toList)), ("type".toList, (.str "int".toList))]), (.obj [("default".toList, (.num 234567890)), ("name".toList, (.str "LongField".toList)), ("type".toList, (.str "long".toList))]), (.obj [("default".toList, (.num 100000000)), ("name".toList, (.str "FloatField".toList)), ("type".toList, (.str "float".toList))]), (.obj [("default".toList, (.num 800000)), ("name".toList, (.str "DoubleField".toList)), ("type".toList, (.str "double".toList))]), (.obj [("default".toList, (.str "defaultstring".toList)), ("name".toList, (.str "StringField".toList)), ("type".toList, (.str "string".toList))]), (.obj [("default".toList, (.bool true)), ("name".toList, (.str "BoolField".toList)), ("type".toList, (.str "boolean".toList))]), (.obj [("default".toList, (.str "\x04\x01\x05ý".toList)), ("name".toList, (.str "BytesField".toList)), ("type".toList, (.str "bytes".toList))])])), ("name".toList, (.str "PrimitiveTestRecord".toList)), ("type".toList, (.str "record".toList))])]
example : wrote .simple true false d_primitive
    ["bytes.go", "primitive_test_record.go", "primitive_test_record_container.go"] = true := by decide +kernel
/-- v10/test/primitive/evolution.avsc -/
def d_primitive_evolution : List Json := [(.obj [("fields".toList, (.arr [(.obj [("default".toList, (.num 1234)), ("name".toList, (.str "NewLongField".toList)), ("type".toList, (.str "long".toList))]), (.obj [("default".toList, (.str "testdefault".toList)), ("name".toList, (.str "NewStringField".toList)), ("type".toList, (.str "string".toList))]), (.obj [("default".toList, (.real 0x4028ae147ae147ae#64)), ("name".toList, (.str "NewFloatField".toList)), ("type".toList, (.str "float".toList))]), (.obj [("default".toList, (.str "\x00ÿ\x01þ".toList)), ("name".toList, (.str "NewBytesField".toList)), ("type".toList, (.str "bytes".toList))]), (.obj [("default".toList, (.real 0x404c63d70a3d70a4#64)), ("name".toList, (.str "NewDoubleField".toList)), ("type".toList, (.str "double".toList))]), (.obj [("default".toList, (.num 5678)), ("name".toList, (.str "NewIntField".toList)), ("type".toList, (.str "int".toList))]), (.obj [("default".toList, (.bool true)), ("name".toList, (.str "NewBoolField".toList)), ("type".toList, (.str "boolean".toList))])])), ("name".toList, (.str "PrimitiveTestRecord".toList)), ("type".toList, (.str "record".toList))])]
example : wrote .simple true false d_primitive_evolution
    ["bytes.go", "primitive_test_record.go", "primitive_test_record_container.go"] = true := by decide +kernel
/-- v10/test/recursive-short/schema.avsc -/
def d_recursive_short : List Json := [(.obj [("fields".toList, (.arr [(.obj [("name".toList, (.str "RecursiveField".toList)), ("type".toList, (.arr [(.str "null".toList), (.str "RecursiveUnionTestRecord".toList)]))])])), ("name".toList, (.str "RecursiveUnionTestRecord".toList)), ("type".toList, (.str "record".toList))])]
example : wrote .simple true true d_recursive_short
    ["recursive_field_union.go", "recursive_union_test_record.go", "recursive_union_test_record_container.go"] = true := by decide +kernel
/-- v10/test/recursive/schema.avsc -/
def d_recursive : List Json := [(.obj [("fields".toList, (.arr [(.obj [("name".toList, (.str "RecursiveField".toList)), ("type".toList, (.arr [(.str "null".toList), (.str "RecursiveUnionTestRecord".toList)]))])])), ("name".toList, (.str "RecursiveUnionTestRecord".toList)), ("type".toList, (.str "record".toList))])]
example : wrote .simple true false d_recursive
    ["recursive_union_test_record.go", "recursive_union_test_record_container.go", "union_null_recursive_union_test_record.go"] = true := by decide +kernel
/-- v10/test/string/schema.avsc -/
def d_string : List Json := [(.obj [("fields".toList, (.arr [(.obj [("name".toList, (.str "productName".toList)), ("type".toList, (.str "string".toList))])])), ("name".toList, (.str "StringRec".toList)), ("type".toList, (.str "record".toList))])]
example : wrote .simple true false d_string
    ["string_rec.go", "string_rec_container.go"] = true := by decide +kernel
/-- v10/test/union-root-short/schema.avsc -/
def d_union_root_short : List Json := [(.arr [(.obj [("key".toList, (.str "value".toList)), ("metadata".toList, (.obj [("a".toList, (.str "b".toList)), ("c".toList, (.num 123))])), ("name".toList, (.str "ip_address".toList)), ("size".toList, (.num 16)), ("type".toList, (.str "fixed".toList))]), (.obj [("fields".toList, (.arr [(.obj [("doc".toList, (.str "Unique ID for this event.".toList)), ("metadata".toList, (.obj [("key".toList, (.str "field1".toList))])), ("name".toList, (.str "id".toList)), ("type".toList, (.str "string".toList))]), (.obj [("doc".toList, (.str "Start IP of this observation's IP range.".toList)), ("metadata".toList, (.obj [("key".toList, (.str "field2".toList))])), ("name".toList, (.str "start_ip".toList)), ("type".toList, (.str "ip_address".toList))]), (.obj [("doc".toList, (.str "End IP of this observation's IP range.".toList)), ("metadata".toList, (.obj [("key".toList, (.str "field3".toList))])), ("name".toList, (.str "end_ip".toList)), ("type".toList, (.str "ip_address".toList))])])), ("metadata".toList, (.obj [("key".toList, (.str "value".toList))])), ("name".toList, (.str "event".toList)), ("subject".toList, (.str "event".toList)), ("type".toList, (.str "record".toList))])])]
example : wrote .simple true false d_union_root_short
    ["event.go", "event_container.go", "ip_address.go", "union_ip_address_event.go"] = true := by decide +kernel
/-- v10/test/union-root/schema.avsc -/
def d_union_root : List Json := [(.arr [(.obj [("key".toList, (.str "value".toList)), ("metadata".toList, (.obj [("a".toList, (.str "b".toList)), ("c".toList, (.num 123))])), ("name".toList, (.str "ip_address".toList)), ("size".toList, (.num 16)), ("type".toList, (.str "fixed".toList))]), (.obj [("fields".toList, (.arr [(.obj [("doc".toList, (.str "Unique ID for this event.".toList)), ("metadata".toList, (.obj [("key".toList, (.str "field1".toList))])), ("name".toList, (.str "id".toList)), ("type".toList, (.str "string".toList))]), (.obj [("doc".toList, (.str "Start IP of this observation's IP range.".toList)), ("metadata".toList, (.obj [("key".toList, (.str "field2".toList))])), ("name".toList, (.str "start_ip".toList)), ("type".toList, (.str "ip_address".toList))]), (.obj [("doc".toList, (.str "End IP of this observation's IP range.".toList)), ("metadata".toList, (.obj [("key".toList, (.str "field3".toList))])), ("name".toList, (.str "end_ip".toList)), ("type".toList, (.str "ip_address".toList))])])), ("metadata".toList, (.obj [("key".toList, (.str "value".toList))])), ("name".toList, (.str "event".toList)), ("subject".toList, (.str "event".toList)), ("type".toList, (.str "record".toList))])])]
example : wrote .simple true false d_union_root
    ["event.go", "event_container.go", "ip_address.go", "union_ip_address_event.go"] = true := by decide +kernel
/-- v10/test/union-short/schema.avsc -/
def d_union_short : List Json := [(.obj [("fields".toList, (.arr [(.obj [("default".toList, (.num 1234)), ("name".toList, (.str "UnionField".toList)), ("type".toList, (.arr [(.str "int".toList), (.str "long".toList), (.str "float".toList), (.str "double".toList), (.str "string".toList), (.str "boolean".toList), (.str "null".toList)]))])])), ("name".toList, (.str "PrimitiveUnionTestRecord".toList)), ("type".toList, (.str "record".toList))])]
example : wrote .simple true false d_union_short
    ["primitive_union_test_record.go", "primitive_union_test_record_container.go", "union_int_long_float_double_string_bool_null.go"] = true := by decide +kernel
example : wroteIn .simple true false d_union_short shown "primitive_union_test_record.go" [("\ntype PrimitiveU".toList ++ "nionTestRecord s".toList ++ "truct {\n\tUnionFi".toList ++ "eld *UnionIntLon".toList ++ "gFloatDoubleStri".toList ++ "ngBoolNull `json".toList ++ ":\"UnionField\"`\n}".toList ++ "\n".toList),
    ("const PrimitiveU".toList ++ "nionTestRecordAv".toList ++ "roCRC64Fingerpri".toList ++ "nt = \"hSK\\xb5\\xb".toList ++ "2ۗ]\"\n".toList),
    ("func (r Primitiv".toList ++ "eUnionTestRecord".toList ++ ") SchemaName() s".toList ++ "tring {\n\treturn ".toList ++ "\"PrimitiveUnionT".toList ++ "estRecord\"\n}\n".toList)] = true := by decide +kernel
example : wroteIn .simple true false d_union_short shown "union_int_long_float_double_string_bool_null.go" [("type UnionIntLon".toList ++ "gFloatDoubleStri".toList ++ "ngBoolNull struc".toList ++ "t {\n\tInt       i".toList ++ "nt32\n\tLong      ".toList ++ "int64\n\tFloat    ".toList ++ " float32\n\tDouble".toList ++ "    float64\n\tStr".toList ++ "ing    string\n\tB".toList ++ "ool      bool\n\tN".toList ++ "ull      *types.".toList ++ "NullVal\n\tUnionTy".toList ++ "pe UnionIntLongF".toList ++ "loatDoubleString".toList ++ "BoolNullTypeEnum".toList ++ "\n}\n".toList),
    ("type UnionIntLon".toList ++ "gFloatDoubleStri".toList ++ "ngBoolNullTypeEn".toList ++ "um int\n\nconst (\n".toList ++ "\tUnionIntLongFlo".toList ++ "atDoubleStringBo".toList ++ "olNullTypeEnumIn".toList ++ "t UnionIntLongFl".toList ++ "oatDoubleStringB".toList ++ "oolNullTypeEnum ".toList ++ "= 0\n\n\tUnionIntLo".toList ++ "ngFloatDoubleStr".toList ++ "ingBoolNullTypeE".toList ++ "numLong UnionInt".toList ++ "LongFloatDoubleS".toList ++ "tringBoolNullTyp".toList ++ "eEnum = 1\n\n\tUnio".toList ++ "nIntLongFloatDou".toList ++ "bleStringBoolNul".toList ++ "lTypeEnumFloat U".toList ++ "nionIntLongFloat".toList ++ "DoubleStringBool".toList ++ "NullTypeEnum = 2".toList ++ "\n\n\tUnionIntLongF".toList ++ "loatDoubleString".toList ++ "BoolNullTypeEnum".toList ++ "Double UnionIntL".toList ++ "ongFloatDoubleSt".toList ++ "ringBoolNullType".toList ++ "Enum = 3\n\n\tUnion".toList ++ "IntLongFloatDoub".toList ++ "leStringBoolNull".toList ++ "TypeEnumString U".toList ++ "nionIntLongFloat".toList ++ "DoubleStringBool".toList ++ "NullTypeEnum = 4".toList ++ "\n\n\tUnionIntLongF".toList ++ "loatDoubleString".toList ++ "BoolNullTypeEnum".toList ++ "Bool UnionIntLon".toList ++ "gFloatDoubleStri".toList ++ "ngBoolNullTypeEn".toList ++ "um = 5\n)\n".toList)] = true := by decide +kernel
/-- v10/test/union-string-bytes/schema.avsc -/
def d_union_string_bytes : List Json := [(.obj [("fields".toList, (.arr [(.obj [("name".toList, (.str "UnionField".toList)), ("type".toList, (.arr [(.str "bytes".toList), (.str "string".toList), (.obj [("fields".toList, (.arr [(.obj [("name".toList, (.str "intfield".toList)), ("type".toList, (.str "int".toList))])])), ("name".toList, (.str "record1".toList)), ("type".toList, (.str "record".toList))]), (.obj [("fields".toList, (.arr [(.obj [("name".toList, (.str "intfield".toList)), ("type".toList, (.str "int".toList))])])), ("name".toList, (.str "record2".toList)), ("type".toList, (.str "record".toList))])]))])])), ("name".toList, (.str "PrimitiveUnionTestRecord".toList)), ("type".toList, (.str "record".toList))])]
example : wrote .simple true false d_union_string_bytes
    ["bytes.go", "primitive_union_test_record.go", "primitive_union_test_record_container.go", "record1.go", "record1_container.go", "record2.go", "record2_container.go", "union_bytes_string_record1_record2.go"] = true := by decide +kernel
/-- v10/test/union-string/schema.avsc -/
def d_union_string : List Json := [(.obj [("fields".toList, (.arr [(.obj [("name".toList, (.str "foo".toList)), ("type".toList, (.arr [(.str "null".toList), (.str "string".toList)]))]), (.obj [("name".toList, (.str "bar".toList)), ("type".toList, (.arr [(.str "string".toList), (.str "null".toList)]))])])), ("name".toList, (.str "record_v1".toList)), ("type".toList, (.str "record".toList))])]
example : wrote .simple true false d_union_string
    ["record_v1.go", "record_v1_container.go", "union_null_string.go", "union_string_null.go"] = true := by decide +kernel
/-- v10/test/union/schema.avsc -/
def d_union : List Json := [(.obj [("fields".toList, (.arr [(.obj [("default".toList, .null), ("name".toList, (.str "UnionField".toList)), ("type".toList, (.arr [(.str "null".toList), (.str "string".toList), (.str "long".toList), (.str "int".toList), (.str "float".toList), (.str "double".toList), (.str "boolean".toList)]))])])), ("name".toList, (.str "PrimitiveUnionTestRecord".toList)), ("type".toList, (.str "record".toList))])]
example : wrote .simple true false d_union
    ["primitive_union_test_record.go", "primitive_union_test_record_container.go", "union_null_string_long_int_float_double_bool.go"] = true := by decide +kernel
/-- v10/test/union/evolution.avsc -/
def d_union_evolution : List Json := [(.obj [("fields".toList, (.arr [(.obj [("name".toList, (.str "UnionField".toList)), ("type".toList, (.arr [(.str "string".toList), (.str "long".toList), (.str "int".toList), (.str "float".toList), (.str "double".toList), (.str "null".toList), (.str "boolean".toList)]))])])), ("name".toList, (.str "PrimitiveUnionTestRecord".toList)), ("type".toList, (.str "record".toList))])]
example : wrote .simple true false d_union_evolution
    ["primitive_union_test_record.go", "primitive_union_test_record_container.go", "union_string_long_int_float_double_null_bool.go"] = true := by decide +kernel
/-- v10/test/../example/example.avsc -/
def d____example_avro : List Json := [(.obj [("fields".toList, (.arr [(.obj [("name".toList, (.str "IntField".toList)), ("type".toList, (.str "int".toList))]), (.obj [("name".toList, (.str "DoubleField".toList)), ("type".toList, (.str "double".toList))]), (.obj [("name".toList, (.str "StringField".toList)), ("type".toList, (.str "string".toList))]), (.obj [("name".toList, (.str "BoolField".toList)), ("type".toList, (.str "boolean".toList))]), (.obj [("name".toList, (.str "BytesField".toList)), ("type".toList, (.str "bytes".toList))])])), ("name".toList, (.str "DemoSchema".toList)), ("type".toList, (.str "record".toList))])]
example : wrote .simple true false d____example_avro
    ["bytes.go", "demo_schema.go", "demo_schema_container.go"] = true := by decide +kernel

end Verif.Props.Corpus
