{
 "claims": [
  {
   "property": "C01",
   "status": "partial",
   "theorems": [
    "HS.C01_round_trip_partial",
    "HS.C01_storable_partial",
    "HS.C01_api_partial",
    "HS.C01_dump_injective_partial",
    "HS.C01_underscore_false"
   ],
   "note": "For every class satisfying TyOK (see Spec/Typing.lean) and every well-typed object, nan included; C01_storable_partial: also for the objects a load can return that are not quite well-typed (short tuples, True for Literal[1]). Missing: classes outside TyOK; with a field name that starts with an underscore the dump fails (C01_underscore_false)."
  },
  {
   "property": "C02",
   "status": "partial",
   "theorems": [
    "HS.C02_enum_iff",
    "HS.C02_false",
    "HS.C02_false_swapped",
    "HS.C59_enums_false"
   ],
   "note": "The dump writes the member name, the load looks up values: C02_enum_iff characterizes when a member survives; C02_false gives an enum for which loading fails, C02_false_swapped one for which it gives another member. C59_enums_false says it of whole objects of every class without version."
  },
  {
   "property": "C03",
   "status": "proved",
   "theorems": [
    "HS.C03_elide_lossless",
    "HS.C03_stable",
    "HS.C03_omits_exactly",
    "HS.dfltShape_of_hasType",
    "HS.C03_false_str_default"
   ],
   "note": "For every storable value (as returned by a load; not only values of exactly the declared types) without nan. C03_elide_lossless holds for more than well-typed defaults (DfltShape); C03_false_str_default shows what goes wrong outside. C03_stable: dumping the loaded object again gives the same document."
  },
  {
   "property": "C04",
   "status": "partial",
   "theorems": [
    "HS.C04_typed_partial",
    "HS.C04_false",
    "HS.C04_serializable"
   ],
   "note": "For every document of raw data, with or without overrides: typed up to tuples that may be shorter than declared and a Literal that holds a value == to a listed one. C04_false: a Tuple[int, str] field loaded with no element. C04_serializable covers Serializable fields for documents with live objects."
  },
  {
   "property": "C05",
   "status": "partial",
   "theorems": [
    "HS.C05_ignore_partial",
    "HS.C05_reject",
    "HS.C05_nested_false",
    "HS.C05_load_ignore_partial",
    "HS.C05_load_reject",
    "HS.C05_optional"
   ],
   "note": "Holds for the fields of the top-level class (and wherever the flag is passed on); C05_nested_false: the flag is not passed to nested classes. C05_load_*: the same for load, loads, config and state of a manager, with overrides.  C05_optional: the flag reaches the class when the type asked for is Optional of it."
  },
  {
   "property": "C06",
   "status": "proved",
   "theorems": [
    "HS.C06_fields",
    "HS.C06_success_iff",
    "HS.isDefault_unique",
    "HS.createField_iff"
   ],
   "note": ""
  },
  {
   "property": "C07",
   "status": "partial",
   "theorems": [
    "HS.C07_int",
    "HS.C07_float",
    "HS.C07_float_of_int_partial",
    "HS.C07_false",
    "HS.C07_false_str",
    "HS.roundNat_nearest",
    "HS.roundNat_exact"
   ],
   "note": "int-for-float is exact up to 2^53 (C07_float_of_int_partial); larger ints are rounded (C07_false) to the nearest binary64 number (roundNat_nearest); float('...') of a string is a parameter of the model (C07_false_str)."
  },
  {
   "property": "C08",
   "status": "partial",
   "theorems": [
    "HS.C08_literal_partial",
    "HS.C08_listed_partial",
    "HS.C08_rejects",
    "HS.C08_false"
   ],
   "note": "C08_false: the value returned may be == to a listed one without being it (True for Literal[1])."
  },
  {
   "property": "C09",
   "status": "partial",
   "theorems": [
    "HS.C09_union_partial",
    "HS.C09_tag_decides",
    "HS.C09_untagged",
    "HS.C09_false_int_str",
    "HS.C09_false_str",
    "HS.C09_false_int_float",
    "HS.C09_false_none",
    "HS.C09_primitive_false",
    "HS.C09_list_false"
   ],
   "note": "Tagged unions of dataclasses behave. For numbers, strings and None the property is false in every union other than an Optional of one type: no such value is ever restored (C09_primitive_false); lists are always rejected (C09_list_false). The four older witnesses remain as illustrations."
  },
  {
   "property": "C10",
   "status": "partial",
   "theorems": [
    "HS.C10_tuple_partial",
    "HS.C10_too_long",
    "HS.C10_false",
    "HS.C10_accepts_iff"
   ],
   "note": "Longer lists are rejected, shorter ones accepted (C10_false). C10_accepts_iff: exactly which documents are accepted."
  },
  {
   "property": "C11",
   "status": "partial",
   "theorems": [
    "HS.C11_override_wins_partial",
    "HS.C11_frame",
    "HS.C11_creates",
    "HS.C13_false"
   ],
   "note": "Missing: booleans with an unrecognised spelling, which take over the value of another override (C13_false). C11_creates: success when ancestors present in the document are objects or None."
  },
  {
   "property": "C12",
   "status": "partial",
   "theorems": [
    "HS.C12_unknown_reported_partial",
    "HS.C12_load_fails_partial",
    "HS.C12_only_unknown",
    "HS.findField_iff",
    "HS.C12_ways_partial",
    "HS.C12_first_error_false"
   ],
   "note": "A load with unknown keys always fails. The error names exactly the unknown keys when the known overrides apply; otherwise the error of a known override (bad value text, non-object ancestor) is raised instead (C12_first_error_false)."
  },
  {
   "property": "C13",
   "status": "partial",
   "theorems": [
    "HS.C13_bool_partial",
    "HS.C13_first_rejected",
    "HS.C13_false",
    "HS.C13_leftover"
   ],
   "note": "False in general: an unrecognised spelling silently reuses the value of the previous override (C13_false, for every unrecognised spelling). The behaviour is characterised completely: recognised spellings (C13_bool_partial), unrecognised first override (C13_first_rejected), unrecognised later override (C13_leftover: the value of the override before it, whatever its type)."
  },
  {
   "property": "C14",
   "status": "partial",
   "theorems": [
    "HS.C14_override_survives_partial",
    "HS.C14_false",
    "HS.C14_ways_partial",
    "HS.C15_versions_partial",
    "HS.C14_defaults_partial",
    "HS.C14_renamed_false",
    "HS.C14_mapped_false",
    "HS.C14_removed_false"
   ],
   "note": "Proved when the rules that run are about unrelated fields, or are ChangeDefault, AddDefault or CheckValue rules for the field itself (C14_override_survives_partial, C14_defaults_partial). False for the other rules, for every class, file and override: RenameField replaces the override by the value of the file (C14_renamed_false), MapFieldValue converts it as if it were an old value (C14_mapped_false), RejectValues and DeleteField drop it (C14_removed_false). C15_versions_partial: also with several versioned classes on the way to the field."
  },
  {
   "property": "C15",
   "status": "partial",
   "theorems": [
    "HS.C15_reaches_partial",
    "HS.C15_leaf",
    "HS.C15_enum_false",
    "HS.C15_ways_partial",
    "HS.C15_ways_leaf",
    "HS.C15_versions_partial",
    "HS.C80_override_false",
    "HS.C15_enums_false"
   ],
   "note": "Proved for every path and field type: the attribute is from_dict of the denoted value (C15_reaches_partial; C15_versions_partial with versioned classes anywhere on the way, if their sections have versions and no rule that runs concerns the way). False for enum fields given by an identifier (C15_enum_false), and for load when the section of a versioned class is left out of the document (C80_override_false). C15_enums_false: an identifier as override of an enum field, at any depth and for any members that are not tuples, always makes the load fail."
  },
  {
   "property": "C16",
   "status": "proved",
   "theorems": [
    "HS.C16_load",
    "HS.C16_load_overrides",
    "HS.C16_load_newer",
    "HS.C16_upgrade_runs",
    "HS.C16_rulesAt",
    "HS.C16_rulesAt_none",
    "HS.C16_current",
    "HS.C16_compose",
    "HS.C16_bad_table",
    "HS.mem_rangeI",
    "HS.rangeI_sorted"
   ],
   "note": "for every rule table, document and version; C16_load states it for load, loads and the state, C16_load_overrides for StateManager with overrides (which go into the document before the rules run), C16_load_newer for documents that are ahead of the class"
  },
  {
   "property": "C17",
   "status": "partial",
   "theorems": [
    "HS.C17_load_rejects",
    "HS.C17_no_upgrade",
    "HS.C17_false",
    "HS.C17_zero_partial"
   ],
   "note": "The README claim is false: load/loads reject, StateManager loads without upgrading; it holds only for classes without rules from version 0 on."
  },
  {
   "property": "C18",
   "status": "partial",
   "theorems": [
    "HS.C18_rename_moves_partial",
    "HS.C18_rename_absent",
    "HS.C18_rename_back",
    "HS.C18_rename_false",
    "HS.C18_blocked_false"
   ],
   "note": "Moving needs the existing ancestors of the new path to be objects; under a None parent the value is lost (C18_rename_false). In general: below a value that is no object the renamed value is always lost (C18_blocked_false)."
  },
  {
   "property": "C19",
   "status": "partial",
   "theorems": [
    "HS.C19_delete_partial",
    "HS.C19_any",
    "HS.C19_shape_false"
   ],
   "note": "C19_delete_partial: success for every document and path whose present ancestors are objects or None. C19_any: the effect, for every document, whenever the rule does not raise. It can raise when a number or text is in the place of an object (C19_shape_false)."
  },
  {
   "property": "C20",
   "status": "partial",
   "theorems": [
    "HS.C20_map_present",
    "HS.C20_map_absent_partial",
    "HS.C20_not_called",
    "HS.C20_shape_false"
   ],
   "note": "C20_not_called: for every document in which the path is absent the function is not called and a document is returned only unchanged. The rule itself can raise when a number or text is in the place of an object (C20_shape_false)."
  },
  {
   "property": "C21",
   "status": "proved",
   "theorems": [
    "HS.C21_addDefault_present",
    "HS.C21_addDefault_absent",
    "HS.C21_changeDefault_present",
    "HS.C21_changeDefault_absent",
    "HS.C21_addDefault_marks_weak",
    "HS.C21_insert_unmarks",
    "HS.C21_addDefault_none_parent"
   ],
   "note": ""
  },
  {
   "property": "C22",
   "status": "partial",
   "theorems": [
    "HS.C22_keeps_old_partial",
    "HS.C22_false",
    "HS.C22_false_default",
    "HS.C22_omitted",
    "HS.C22_twice_false",
    "HS.C22_omitted_deep",
    "HS.C22_twice"
   ],
   "note": "Proved when the objects around the path are present in the document (C22_keeps_old_partial). False when a section is omitted: for every class and document without the section, the rules for fields in it have no effect and the section has the default declared now (C22_omitted, for rules with different fields). With two rules for the same field the old default is kept after all (C22_twice_false), so the outcome depends on how many rules run.  C22_omitted_deep: the same for sections at any depth.  C22_twice: with two or more rules for the field the oldest default is kept, whether or not the section is there."
  },
  {
   "property": "C23",
   "status": "partial",
   "theorems": [
    "HS.C23_check",
    "HS.C23_check_absent",
    "HS.C23_check_readonly",
    "HS.C23_reject_partial",
    "HS.C23_reject_false"
   ],
   "note": "RejectValues removes the value it accepts (C23_reject_false holds for every accepted document), so the 'document unchanged' half is false for it."
  },
  {
   "property": "C24",
   "status": "proved",
   "theorems": [
    "HS.C24_version_recorded"
   ],
   "note": "at every depth"
  },
  {
   "property": "C25",
   "status": "partial",
   "theorems": [
    "HS.C25_schema",
    "HS.C25_class_partial",
    "HS.C25_upgrade_partial",
    "HS.C25_instance_default_false",
    "HS.C25_nan_false",
    "HS.C25_tuple_unsupported",
    "HS.C25_unequal_false",
    "HS.C25_instances_false",
    "HS.C25_nans_false"
   ],
   "note": "Proved for every schema/class built from primitives, List, Optional, enums, Literals and nested dataclasses whose defaults and values are equal to themselves and contain no dataclass instances. False for defaults that are dataclass instances or nan (witnesses), and classes with Tuple/Dict/Union raise ValueError. In general: a default not equal to what the file holds for it (every dataclass instance, every nan) is reported as changed whenever the check ends (C25_unequal_false, C25_instances_false, C25_nans_false)."
  },
  {
   "property": "C26",
   "status": "proved",
   "theorems": [
    "HS.C26_empty",
    "HS.C26_max",
    "HS.C26_info",
    "HS.C26_perm",
    "HS.C26_fix",
    "HS.C26_error"
   ],
   "note": ""
  },
  {
   "property": "C27",
   "status": "partial",
   "theorems": [
    "HS.C27_partial",
    "HS.C27_older_partial",
    "HS.C27_empty_false",
    "HS.C27_optional_false",
    "HS.C27_variant_false",
    "HS.C27_overflow_false",
    "HS.C27_literal_false",
    "HS.C27_schedules_partial"
   ],
   "note": "every pair of definitions of a class with the same upgrade rules and every document of the old version that loads with the old class: INFO implies that it loads with the new class and every value set is kept (C27_partial). For documents of older versions, valid for the stored schema and with rules agreeing between schema and document, the same (C27_older_partial). Missing: reports with enum variants counted as renamed or changed types containing Optional/dataclass/union, empty dataclasses in the old schema, ignore_extra; the claim is false there (counterexamples proved).  The events of a load are kept too: the new class registers the same schedules for the same fields and finds the same blobs (C27_schedules_partial)."
  },
  {
   "property": "C28",
   "status": "proved",
   "theorems": [
    "HS.C28_exact",
    "HS.C28_ok",
    "HS.C28_added",
    "HS.C28_removed",
    "HS.C28_added_top",
    "HS.C28_removed_top",
    "HS.C28_classes"
   ],
   "note": "All twelve kinds of change, characterised by paths through the two schemas; leaves under List/Optional are relative to the pair of element types."
  },
  {
   "property": "C29",
   "status": "proved",
   "theorems": [
    "HS.C29_matching",
    "HS.C29_kept",
    "HS.C29_origin",
    "HS.C29_no_pair",
    "HS.C29_field_rename"
   ],
   "note": "for every similarity function and every choice of change kinds; also proved: the matching is greedy (a most similar free pair each time). Changes are identified by position: list.remove is modelled as removing that object."
  },
  {
   "property": "C30",
   "status": "partial",
   "theorems": [
    "HS.C30_partial",
    "HS.C30_refl",
    "HS.C30_option_false",
    "HS.C30_option_incomplete",
    "HS.C30_struct_false",
    "HS.C30_struct_field_false",
    "HS.C30_overflow_false",
    "HS.C30_literal_false",
    "HS.C30_options_false",
    "HS.C30_union_incomplete",
    "HS.C30_structs_false"
   ],
   "note": "Sound (with the loaded value kept up to number conversion) when the smaller type has no Optional, dataclass or union inside and ints fit into floats; reflexive for all types without nan. False for Optional and dataclasses (compared contravariantly), for ints beyond the float range, and when the larger Literal has a value that cannot be evaluated.  Schedules and blobs inside the value are kept, too. For Optionals in general the answer is that of the converse question (C30_options_false). Unions are reported to be subtypes only of equal Unions (C30_union_incomplete). For dataclasses in general: C30_structs_false."
  },
  {
   "property": "C31",
   "status": "proved",
   "theorems": [
    "HS.C31_least",
    "HS.C31_symm",
    "HS.C31_zero",
    "HS.C31_bound",
    "HS.C31_triangle",
    "HS.C31_range",
    "HS.C31_identical",
    "HS.C31_sim_symm",
    "HS.C31_value",
    "HS.C31_abbreviation",
    "HS.C31_underscores"
   ],
   "note": "in exact arithmetic (distances in quarters, similarities rational), for every function in place of str.lower"
  },
  {
   "property": "C32",
   "status": "partial",
   "theorems": [
    "HS.C32_any",
    "HS.C32_class_partial",
    "HS.C32_unsupported",
    "HS.C32_instance_default_false",
    "HS.C32_edited",
    "HS.C32_edited_one",
    "HS.C32_edited_field",
    "HS.C32_unequal_false",
    "HS.C32_instances_false"
   ],
   "note": "Relative to the trusted pyron trip (ronStruct). A schema whose defaults contain no dataclass instances is returned unchanged if it has no Tuple/Dict/Union; otherwise loading fails. A dataclass-instance default comes back as a namedtuple (witness).  Files written or edited by hand: C32_edited says exactly which load and as what (for attributes of the class that the dump writes), C32_edited_field what an edit of one field changes. In general: with a default not equal to what the file holds for it (every dataclass instance), the loaded schema is not equal to that of the class (C32_unequal_false, C32_instances_false)."
  },
  {
   "property": "C33",
   "status": "partial",
   "theorems": [
    "HS.C33_delete",
    "HS.C33_rename_partial",
    "HS.C33_map_partial",
    "HS.C33_changeDefault_partial",
    "HS.C33_addDefault",
    "HS.C33_check",
    "HS.C33_reject_never",
    "HS.C33_rule_partial",
    "HS.C33_rules_partial",
    "HS.C33_top_partial",
    "HS.C33_list_false",
    "HS.C33_created_false",
    "HS.C33_none_false",
    "HS.C33_two_rules_false",
    "HS.C33_versionless",
    "HS.C33_versions",
    "HS.C33_versionless_differs",
    "HS.C33_map_variants",
    "HS.C33_map_enum",
    "HS.C33_map_optional_false",
    "HS.C33_map_default_false"
   ],
   "note": "every kind of rule, every schema and every document valid for it: if the schema form of the rule succeeds and the document form succeeds, the new document is valid for the new schema, under the side conditions the theorems list (renamed-into parents exist, no path through a List, converted values fit the new type). The unconditional claim is false of the code: four counterexamples are proved. C33_versionless and C33_versions say which rules run for a schema; C33_versionless_differs: documents without a version are treated differently.  MapFieldValue on enum fields: C33_map_variants and C33_map_enum need no condition on the values; false for Optional enums (C33_map_optional_false), and the default is not mapped (C33_map_default_false)."
  },
  {
   "property": "C34",
   "status": "proved",
   "theorems": [
    "HS.C34_iff",
    "HS.C34_untouched"
   ],
   "note": ""
  },
  {
   "property": "C35",
   "status": "proved",
   "theorems": [
    "HS.C35_parse",
    "HS.C35_rejects",
    "HS.C35_chained"
   ],
   "note": "SchedEx.C35_colon_unchecked shows that the character after the state field name is dropped without being checked. Numbers are exact (ordered field), float() is a parameter."
  },
  {
   "property": "C36",
   "status": "partial",
   "theorems": [
    "HS.C36_between_partial",
    "HS.C36_segment_partial",
    "HS.C36_no_segments",
    "HS.isCos_real",
    "HS.C74_range_false",
    "HS.C74_between"
   ],
   "note": "In exact arithmetic over any ordered field with a cosine-like interpolator (isCos_real: the real cosine). False in binary64: C74_range_false (a constant schedule leaves its range by a unit in the last place); C74_between is the version with rounding."
  },
  {
   "property": "C37",
   "status": "partial",
   "theorems": [
    "HS.C37_at_knot",
    "HS.C37_before",
    "HS.C37_after_partial",
    "HS.C37_step_false"
   ],
   "note": "After the last knot the last value is held only for lin and cos; C37_step_false: a step segment never reaches its final value."
  },
  {
   "property": "C38",
   "status": "partial",
   "theorems": [
    "HS.C38_monotone_partial",
    "HS.C38_linear_partial",
    "HS.C38_float_false",
    "HS.C74_to_zero_mono"
   ],
   "note": "In exact arithmetic over any ordered field. False in binary64 (C38_float_false); true there for segments that end in 0 (C74_to_zero_mono)."
  },
  {
   "property": "C39",
   "status": "partial",
   "theorems": [
    "HS.C39_registered_partial",
    "HS.C39_followed_partial",
    "HS.C39_written_partial",
    "HS.C39_applied",
    "HS.C39_depth_false",
    "HS.C39_wrong_field_false",
    "HS.C39_list_false"
   ],
   "note": "False of the code: a schedule three or more fields deep raises KeyError or sets a field of another object, and schedules in list elements fail. Proved for schedules at most two fields deep, in documents of any version: exactly the schedules of the document are registered, each for its field, registration never fails, every field follows its schedule after each step, and the schedules are written back and registered again."
  },
  {
   "property": "C40",
   "status": "partial",
   "theorems": [
    "HS.C40_crash_safe_partial",
    "HS.C40_never_lost_partial",
    "HS.C40_step_returns_partial",
    "HS.C40_large_key_false",
    "HS.C40_large_keys_false"
   ],
   "note": "For keys in (-10^11, 10^12), the range in which the directory name determines the key (see C43), and an initial directory in which no entry has a larger number than the newest complete checkpoint (if there is none: no entry ends in a number). Outside the range it is false: C40_large_key_false; with such an entry it is false: C44_numbered_dir_false. In general, when the key passes 10^12: C40_large_keys_false."
  },
  {
   "property": "C41",
   "status": "partial",
   "theorems": [
    "HS.C41_step_saves_partial",
    "HS.C41_same_key_false",
    "HS.C41_stale_false",
    "HS.C41_key",
    "HS.C41_bad_key"
   ],
   "note": "Proved for keys whose checkpoint does not exist yet. False otherwise: stepping twice with the same key deletes the only checkpoint and later steps raise FileNotFoundError; an existing entry is kept as it is. C41_key holds without that restriction: after every successful step the checkpoint in force is the one named after the key field, which is an int; C41_bad_key: any other value makes the step fail."
  },
  {
   "property": "C42",
   "status": "partial",
   "theorems": [
    "HS.C42_bounded_partial",
    "HS.C42_exact_partial"
   ],
   "note": "Same key range and initial directory as C40 (C42_exact_partial: no numbered entries at the beginning)."
  },
  {
   "property": "C43",
   "status": "partial",
   "theorems": [
    "HS.C43_newest_partial",
    "HS.C43_order",
    "HS.C43_large_key_false",
    "HS.C43_large_key",
    "HS.C43_large_keys_false",
    "HS.C43_negative_key",
    "HS.C43_negative_keys_false"
   ],
   "note": "Proved for keys of at most 12 characters; false beyond (names are compared by their last 12 characters). In general: a key of more than twelve digits is read as its last twelve digits (C43_large_key), a negative key of twelve digits without its sign (C43_negative_key), and older checkpoints are then restored (C43_large_keys_false, C43_negative_keys_false)."
  },
  {
   "property": "C44",
   "status": "partial",
   "theorems": [
    "HS.C44_foreign_ignored_partial",
    "HS.C44_tmp_foreign",
    "HS.C44_numbered_dir_false",
    "HS.C44_latest_dir_false"
   ],
   "note": "Proved for temporary copies, files and directories without a number at the end; false for directories whose name ends in a larger number."
  },
  {
   "property": "C45",
   "status": "partial",
   "theorems": [
    "HS.C45_partial",
    "HS.manager_fits",
    "HS.C45_class_partial"
   ],
   "note": "For every history, a checkpointing step and a new manager give back config, schedules and all state fields, in any order of reads. C45_class_partial asks of the config only that its class round trips (C01-C10), that the document loaded at the start has its schedules at most two fields deep (C39) and that the overrides reach their fields (C73); manager_fits shows that the config then round trips at every moment, also after exceptions. Further conditions: the state round trips, Serializables are direct fields (C50), larger key than earlier ones (C43)."
  },
  {
   "property": "C46",
   "status": "partial",
   "theorems": [
    "HS.C46_step_partial",
    "HS.C46_load_partial",
    "HS.C46_before_partial",
    "HS.C46_always_partial",
    "HS.C46_false"
   ],
   "note": "Proved for all histories after the first access to the state; false for the config read before the state is accessed, where C46_before_partial says what it holds instead: the schedules at 0."
  },
  {
   "property": "C47",
   "status": "proved",
   "theorems": [
    "HS.C47_config",
    "HS.C47_state",
    "HS.C47_init_ignored",
    "HS.C47_overrides",
    "HS.C47_document",
    "HS.C47_overrides_versions"
   ],
   "note": "all histories, all contents of the directory and of init_path. That overrides apply in all cases: C47_document for every class; C47_overrides and, for versioned classes, C47_overrides_versions say which value the field then has (rules that concern the field can change it: C14)."
  },
  {
   "property": "C48",
   "status": "proved",
   "theorems": [
    "HS.C48_once",
    "HS.C48_never_again",
    "HS.C48_opens",
    "HS.C48_opens_own",
    "HS.C48_missing_file",
    "HS.C48_missing_reported",
    "HS.C48_plain"
   ],
   "note": "for every object, every history of reads and assignments, every deserialize function and every set of fields it reads"
  },
  {
   "property": "C49",
   "status": "partial",
   "theorems": [
    "HS.C49_partial",
    "HS.C49_false",
    "HS.C49_lost",
    "HS.C49_exact",
    "HS.C93_assign_unread",
    "HS.C93_assign_read"
   ],
   "note": "false of the code: an assignment before the first read is overwritten by the stored value when the field is read. C49_exact says for every history what a read gives: the last value assigned after the first read, else the stored value (deserialize methods that do not read the state). C49_partial: the claim itself, for every history in which the field is read before it is assigned.  For deserialize methods that read the state see C93 (C93_assign_unread, C93_assign_read)."
  },
  {
   "property": "C50",
   "status": "partial",
   "theorems": [
    "HS.C50_files_partial",
    "HS.C50_read_partial",
    "HS.C50_contents",
    "HS.C50_config",
    "HS.C50_list_false",
    "HS.C50_nested_false",
    "HS.C50_plain_class_false",
    "HS.C50_same_file_false"
   ],
   "note": "False of the code for list elements (different file names), nested dataclasses (never loaded), state classes that do not inherit from Lazy (read as None) and dict entries whose keys differ only in brackets (same file). Proved: what every file of any dump contains (C50_contents), that the config has no blobs (C50_config), and the whole property for direct fields of a Lazy state."
  },
  {
   "property": "C51",
   "status": "partial",
   "theorems": [
    "HS.C51_partial",
    "HS.C51_values_partial",
    "HS.C51_false"
   ],
   "note": "Proved for steps to a checkpoint name that does not exist yet; false when the target directory exists (step() right after restoring removes the directory)."
  },
  {
   "property": "C52",
   "status": "partial",
   "theorems": [
    "HS.C52_trip_partial",
    "HS.C52_same_partial",
    "HS.C52_arrays_partial",
    "HS.C52_packs_iff",
    "HS.C52_hook",
    "HS.C52_tuple_false",
    "HS.C52_clash_false",
    "HS.C52_tuple_key_false",
    "HS.C52_structured_false",
    "HS.C52_object_false",
    "HS.C52_grad_false",
    "HS.C52_structureds_false",
    "HS.C52_objects_false",
    "HS.C52_unknown_dtype_false",
    "HS.C52_clashes_false",
    "HS.C52_marked_partial",
    "HS.C52_marked_false"
   ],
   "note": "Round trip proved for every nested structure of the supported items (arrays with unstructured dtypes, tensors not requiring grad, no tuples except through the list they become, no dict with the marker key); packing succeeds exactly for the items characterised by C52_packs_iff. The *_false theorems show that the missing cases really fail in the code. The failing kinds are also proved for all arrays: every dtype that dtype.str does not determine comes back as the other dtype, every array of objects and every unknown dtype packs without an error and cannot be read, and every dict in the form of an array comes back as that array. A dict with the key __tensor__ comes back if it lacks data or dtype (C52_marked_partial); with both and an unknown dtype the file cannot be read."
  },
  {
   "property": "C53",
   "status": "partial",
   "theorems": [
    "HS.C53_listed_partial",
    "HS.C53_paths",
    "HS.C53_optional_false",
    "HS.C53_below_optional_false"
   ],
   "note": "Every field reachable through directly nested dataclasses is listed exactly once, under a path that overrides accept and that names that field. Fields below Optional dataclasses are overridable but not listed (C53_optional_false). C53_below_optional_false: in general, every path below a listed field of optional dataclass type is accepted by overrides and listed by help for no query."
  },
  {
   "property": "C54",
   "status": "partial",
   "theorems": [
    "HS.C54_command",
    "HS.C54_stateful_partial",
    "HS.C54_help",
    "HS.C54_empty_config_false"
   ],
   "note": "Exact characterisation of when the user function runs and with what. An empty --config string counts as not given in stateful_command (C54_empty_config_false)."
  },
  {
   "property": "C55",
   "status": "partial",
   "theorems": [
    "HS.C55_untouched",
    "HS.C55_full_partial",
    "HS.C55_elided_partial",
    "HS.C55_elided_every_partial",
    "HS.C55_elided_schedules_partial",
    "HS.C55_elided_every_schedules_partial",
    "HS.C55_every_document_partial",
    "HS.C55_schedules_partial",
    "HS.C55_every_schedules_partial",
    "HS.C55_enum_false",
    "HS.C55_blob_false",
    "HS.C55_elided_schedules_false"
   ],
   "note": "For every document of any version that loads (class in TyOK, conditions on the class only), with or without schedules (for fields of the config or of dataclasses directly in it): the rewritten file loads with the same schedules, as the same config with --include-defaults, as a config that is == without it (if there is no nan), and a second run changes nothing. Missing: schedules deeper in the config (C39: these do not load at all or are not followed). False for enums whose member names differ from their values and for Serializable fields: the rewritten file no longer loads (witnesses); C55_elided_schedules_false shows that a schedule can be lost when a default does not have the declared type."
  },
  {
   "property": "C56",
   "status": "proved",
   "theorems": [
    "HS.C56_best_first",
    "HS.C56_exact_shown",
    "HS.C56_ranked",
    "HS.C56_cut",
    "HS.C56_contains_false"
   ],
   "note": "For a non-empty query (an empty one prints the whole schema). C56_cut says exactly where the list is cut; C56_contains_false records that fields merely containing the query may be cut off."
  },
  {
   "property": "C57",
   "status": "partial",
   "theorems": [
    "HS.C57_errors_partial",
    "HS.C57_other",
    "HS.C57_user_error",
    "HS.C57_conflict",
    "HS.C57_stateful_partial",
    "HS.C57_malformed_false"
   ],
   "note": "Holds for load errors and conflicting options; a hyperparameter without '=' prints an error but exits with code 0 (C57_malformed_false)."
  },
  {
   "property": "C58",
   "status": "partial",
   "theorems": [
    "HS.C58_partial",
    "HS.C58_bumped_partial",
    "HS.C58_schemas_partial",
    "HS.C58_default_removed_false",
    "HS.C58_literal_removed_false",
    "HS.C58_list_false",
    "HS.C58_enum_swap_false",
    "HS.C58_literal_list_false",
    "HS.C58_order_false",
    "HS.C58_contravariant_false",
    "HS.C58_old_version_false",
    "HS.C58_literals_removed_false"
   ],
   "note": "False in general: the proposed rules for removed defaults, removed Literal values, a type changed to a list of it, exchanged enum values and Literals inside lists do not settle the change they are proposed for; renames can be lost because of their order; and the advice to add the rules for the version of the schema file is wrong when the class is more than one version ahead. Proved for all reports made of removed fields, renamed fields of accepted types, changed defaults, new Optional/List fields and fields that became Literals, when no two rules concern the same field or one within the other, for any existing rules of the class. For a removed Literal value in general: C58_literals_removed_false."
  },
  {
   "property": "C59",
   "status": "partial",
   "theorems": [
    "HS.C59_partial",
    "HS.C59_load_partial",
    "HS.C59_enum_false",
    "HS.C59_enums_false"
   ],
   "note": "For classes in TyOK, with every document of raw data, any overrides and flags; no condition on the object. False for enums whose member names differ from their values (C59_enum_false). C59_enums_false: every saved object with a member whose name is no member's value, in a field of any class without version, cannot be loaded."
  },
  {
   "property": "C60",
   "status": "partial",
   "theorems": [
    "HS.C60_exact",
    "HS.C60_raw",
    "HS.C60_loads_partial",
    "HS.C60_tagged_false",
    "HS.C60_always_partial"
   ],
   "note": "C60_exact: config_dict() succeeds with d exactly when d mirrors the config. Reading it back is proved for classes without unions of dataclasses; false with them, since the class names are not written (C60_tagged_false). C60_always_partial: at every moment of every history, with conditions on class and document only."
  },
  {
   "property": "C61",
   "status": "partial",
   "theorems": [
    "HS.C61_frame",
    "HS.C61_partial",
    "HS.C61_class_partial",
    "HS.C61_false",
    "HS.C61_now_partial"
   ],
   "note": "For every history, under the conditions of C45 (C61_class_partial: conditions on the config class and the document loaded at the start only) and if the scheduled fields are those of the current state (as after every step). C61_false: state changed since the last step, then the new manager evaluates the schedules at the new state.  C61_now_partial: without the condition on the scheduled fields: at any time the new manager has the same state, schedules and unscheduled fields, and the scheduled fields have the values for the saved state, which is what this manager gets when it applies the schedules."
  },
  {
   "property": "C62",
   "status": "proved",
   "theorems": [
    "HS.C62_blind",
    "HS.C62_refused",
    "HS.C62_document",
    "HS.C62_only_msgpack",
    "HS.C62_where"
   ],
   "note": "Non-interference: two disks that differ only in the contents of pickled blobs cannot be told apart by any sequence of reads and assignments. C62_document: for every document that loads, an unread field not marked as pickled has a .msgpack file."
  },
  {
   "property": "C63",
   "status": "partial",
   "theorems": [
    "HS.C63_frame",
    "HS.C63_dry_run",
    "HS.C63_sequence",
    "HS.C63_order",
    "HS.C63_meaning_partial",
    "HS.C63_schedules_partial",
    "HS.C63_elided_partial"
   ],
   "note": "C63_frame, C63_dry_run, C63_sequence, C63_order hold without conditions on class and documents (distinct files). C63_schedules_partial and C63_elided_partial (every file keeps its config and schedules, other files are untouched, a second run changes nothing; files may be named twice) are for the classes and documents of C55; C63_meaning_partial states the former through hyperstate.load."
  },
  {
   "property": "C64",
   "status": "proved",
   "theorems": [
    "HS.C64_frame",
    "HS.C64_constant"
   ],
   "note": "For every history of manager operations."
  },
  {
   "property": "C65",
   "status": "partial",
   "theorems": [
    "HS.C65_range_partial",
    "HS.C65_settles_partial",
    "HS.C65_range_user_partial",
    "HS.C65_settles_user_partial"
   ],
   "note": "For every history. The range theorem needs schedules at most two levels deep (deeper ones fail, C39_false) and finite state attributes; the settling theorem excludes schedules ending in `step`, which never reach the last value (C37_step_false). Schedule arithmetic is exact here: in binary64 the range holds up to rounding (C74_between), not exactly (C74_range_false), and an int field can be one below (C74_int_false).  C65_range_user_partial and C65_settles_user_partial: also in histories in which operations raise, and with assignments of the user to other fields of the config."
  },
  {
   "property": "C66",
   "status": "partial",
   "theorems": [
    "HS.C66_recorded",
    "HS.C66_meaning",
    "HS.C66_advice_partial"
   ],
   "note": "For fields of atomic types (numbers, strings, enums with distinct values, Literals, Optionals of these), when the document gives the objects around the field and the proposed rules concern unrelated fields. A document without the surrounding object gets the new default (C22_false)."
  },
  {
   "property": "C67",
   "status": "partial",
   "theorems": [
    "HS.C67_advice_partial",
    "HS.C67_reported"
   ],
   "note": "No two proposed rules may concern fields within one another; nested classes are unversioned; same value up to number conversion for types without Optional, union and dataclass, where the subtype test is wrong (C30)."
  },
  {
   "property": "C68",
   "status": "proved",
   "theorems": [
    "HS.C68_place"
   ],
   "note": "Every type of the model, every value; success, value and error."
  },
  {
   "property": "C69",
   "status": "partial",
   "theorems": [
    "HS.C69_lines",
    "HS.C69_text_partial",
    "HS.C69_name",
    "HS.C69_agree",
    "HS.C69_fail",
    "HS.C69_verdict",
    "HS.C69_advice",
    "HS.C69_variant_false",
    "HS.C69_default_false",
    "HS.C69_info_rule_false",
    "HS.C69_matched_false"
   ],
   "note": "Proved for every schema and class: lines, verdict, agreement with upgrade-schema, rules and version advice; and every text is true of the two schemas (C69_text_partial). False: the text for a renamed enum variant names the new variant twice (C69_variant_false), a new field with a default is reported as 'without default value' (C69_default_false), a removed variant matched with a new one of another value is reported under the enum of the new one (C69_matched_false), and rules are listed for info changes too (C69_info_rule_false)."
  },
  {
   "property": "C70",
   "status": "partial",
   "theorems": [
    "HS.C70_listing",
    "HS.C70_none_false",
    "HS.C70_nones_false"
   ],
   "note": "C70_listing covers everything but the default None, which is not shown, so that a required field and one with default None look the same (C70_none_false). In general, in every class: C70_nones_false."
  },
  {
   "property": "C71",
   "status": "partial",
   "theorems": [
    "HS.execX_exec",
    "HS.C71_config",
    "HS.C71_scheduled_partial",
    "HS.C71_disk",
    "HS.C71_step_disk",
    "HS.C71_state",
    "HS.C71_load",
    "HS.C71_step",
    "HS.C71_retry_false",
    "HS.C71_checkpoint",
    "HS.C71_config_dict"
   ],
   "note": "Every clause is proved for histories in which any operation may raise (execX_exec: the model with exceptions agrees with the one without). C71_scheduled_partial needs schedules not deeper than two levels (C39). False of the code: after a failed access to the state caused by a schedule, the next access returns with the schedules not applied (C71_retry_false).  C71_checkpoint, C71_config_dict: what checkpoint and config_dict give after exceptions."
  },
  {
   "property": "C72",
   "status": "partial",
   "theorems": [
    "HS.step_wrote",
    "HS.C72_crash_safe_partial",
    "HS.C72_start",
    "HS.C72_never_lost_partial",
    "HS.C72_raise",
    "HS.lifeT_inv",
    "HS.C72_class_crash_safe_partial",
    "HS.C72_class_never_lost_partial",
    "HS.C72_class_step"
   ],
   "note": "Partial because the classes are restricted: config class and initial document with its overrides as in C45_class_partial and C73; state class whose fields are of types that round trip or (Optional) Serializable classes with an inverse deserialize, schedules that do not depend on Serializable fields (StClass), an initial state of the class. Values assigned to state fields have the type of the field. Nothing is assumed about the states at which steps are taken (C72_class_*); that the values of the fields have their types at every moment, also after exceptions and restarts, is proved (lifeT_inv). Checkpoint keys grow (C43).  The histories include assignments of the user to the config (Life.assign, conditions AssignOK)."
  },
  {
   "property": "C73",
   "status": "partial",
   "theorems": [
    "HS.C73_again",
    "HS.C73_effect",
    "HS.C73_manager_partial",
    "HS.C73_false"
   ],
   "note": "C73_manager_partial: for every history, with exceptions, and with several overrides for the same field, of which the last counts. Partial: overrides for a field and a part of it, versioned classes below the config class, and overrides with objects that contain schedules are not covered. C73_false: if an upgrade rule moved a value over the override, the override takes effect at the restart."
  },
  {
   "property": "C74",
   "status": "partial",
   "theorems": [
    "HS.C74_at_knot",
    "HS.C74_before",
    "HS.C74_after_partial",
    "HS.C74_between",
    "HS.C74_error",
    "HS.C74_error64",
    "HS.C74_to_zero",
    "HS.C74_to_zero_mono",
    "HS.C74_int_partial",
    "HS.C74_int_false",
    "HS.C74_range_false",
    "HS.isRnd_rnd64",
    "HS.C74_int_cut",
    "HS.isRnd_rndSub",
    "HS.C74_no_overflow",
    "HS.C74_binary64_between",
    "HS.C74_binary64_knots_partial",
    "HS.C74_binary64_error",
    "HS.C74_overflow_false",
    "HS.C74_infinite_partial",
    "HS.C74_nan"
   ],
   "note": "With the exponents, infinite numbers, NaN and subnormal numbers of Python's floats (Model/ScheduleIEEE) for numbers up to 2^1022: the value is finite, exact at the points, within the range and close to the exact value (C74_no_overflow, C74_binary64_*). Beyond that it is false: C74_overflow_false has the value NaN at the last point of a schedule of finite numbers. The statement about int fields is false (C74_int_false: 1 where the exact value is 2); C74_int_partial: off by at most one. After the last point step schedules are excluded (C37_step_false). The sign of zero is left out. Positions that are no finite numbers: at -inf the value is the first one, at inf the last one (unless the last segment is a step; partial), at nan it is nan unless the last segment is a step."
  },
  {
   "property": "C75",
   "status": "partial",
   "theorems": [
    "HS.C75_context_partial",
    "HS.C75_late",
    "HS.C75_state",
    "HS.C75_read",
    "HS.C75_not_lazy",
    "HS.C75_late_false"
   ],
   "note": "False of the code: the state gets a copy of the manager's context when it is loaded, so values set on the manager later reach no field (C75_late: they have no effect at all; C75_late_false). Proved: the context in effect is the one at the moment of loading (C75_context_partial), values set on a Lazy state reach fields read afterwards (C75_state), read fields keep their values (C75_read). A state that is not Lazy has no such method (C75_not_lazy)."
  },
  {
   "property": "C76",
   "status": "partial",
   "theorems": [
    "HS.C76_safe_partial",
    "HS.C76_restores",
    "HS.C76_none",
    "HS.C76_frame",
    "HS.C76_one_dir",
    "HS.C76_foreign_false",
    "HS.C76_left_false",
    "HS.C76_taken_false",
    "HS.C76_off_on"
   ],
   "note": "C76_safe_partial: the last completed checkpoint is never lost, for all histories over all directories, if no step writes a name that is in use in its directory or is that of the previous checkpoint. Without that it is false (C76_taken_false: the step writes nothing and deletes the checkpoint with its own name). False of the code as well: that only own checkpoints are removed (C76_foreign_false: the latest checkpoint of another run in the assigned directory is deleted and the own one is left; C76_left_false: assigning an empty directory makes the next step delete the checkpoint in the old one). Different paths are taken to be different directories."
  },
  {
   "property": "C77",
   "status": "proved",
   "theorems": [
    "HS.C77_one_checkpoint",
    "HS.C77_values",
    "HS.C77_undisturbed",
    "HS.C77_gone_false",
    "HS.C77_two_trainers_false"
   ],
   "note": "For the histories of C40 (keys in (-10^11, 10^12), growing). Changes of the directory happen between calls; a call that reads several files can be split into calls that read one each (Model/Shared). Around the property: after a completed step of the trainer the reader can load nothing more (C77_gone_false), and a second process that makes steps in the same directory gets FileNotFoundError for ever (C77_two_trainers_false)."
  },
  {
   "property": "C78",
   "status": "partial",
   "theorems": [
    "HS.C78_first",
    "HS.C78_empty",
    "HS.C78_empty_reads",
    "HS.C78_config_read_false",
    "HS.C78_state_read_false",
    "HS.C78_deleted_false"
   ],
   "note": "Holds when nothing has been read before (C78_first), and for a directory without checkpoint after every history (C78_empty; with steps before, all reads stay: C78_empty_reads). False of the code for a directory with a checkpoint once something has been read: after the config was read only the state is restored (C78_config_read_false), after the state was read nothing is (C78_state_read_false), and the next step that returns deletes the checkpoint (C78_deleted_false). Concrete cases in Props/Assign.lean."
  },
  {
   "property": "C79",
   "status": "partial",
   "theorems": [
    "HS.C79_safe_partial",
    "HS.C79_forward_partial",
    "HS.C79_complete_partial",
    "HS.C79_alone",
    "HS.C79_gone_false",
    "HS.C79_lockstep_false",
    "HS.C79_race_false"
   ],
   "note": "Proved for all interleavings: nothing that was acknowledged is lost, what is restored is complete and never gets older, and an undisturbed step is the step of C40-C44. False: that every step returns (a process whose previous checkpoint was deleted by another one raises at every later step; two processes writing the same checkpoint). Keys are assumed to be in the usual range and increasing per process, as in C40."
  },
  {
   "property": "C80",
   "status": "partial",
   "theorems": [
    "HS.C80_section_partial",
    "HS.C80_nested_partial",
    "HS.C80_section_needs_version",
    "HS.C80_manager",
    "HS.C80_override_false",
    "HS.C80_checker_false",
    "HS.C80_deep",
    "HS.C80_manager_deep"
   ],
   "note": "Upgrading of sections is proved for load and every class and every nesting of versioned sections (C80_deep; C80_section_partial and C80_nested_partial are special cases), and for StateManager (C80_manager_deep, also for sections without a version). The part about overrides is false of load for every class and field (C80_override_false: ValueError), true of StateManager (C80_manager: the new section is read as one of the current version). The part about the schema checker is false (C80_checker_false)."
  },
  {
   "property": "C81",
   "status": "proved",
   "theorems": [
    "HS.C81_edit",
    "HS.C81_versioned",
    "HS.C81_checkpoint",
    "HS.setAttr_attr",
    "HS.edit_at",
    "HS.C81_loads"
   ],
   "note": "C81_edit: every loader (load, loads, config and state of a manager), unversioned classes on the way; C81_versioned: a versioned class and a document of its current version; C81_checkpoint: through StateManager. edit_at and setAttr_attr say what an edit and an assignment are. That from_dict accepts the edited document is proved without conditions; a schedule written more than two fields deep can still make the load fail when it is registered (C39_false)."
  },
  {
   "property": "C82",
   "status": "partial",
   "theorems": [
    "HS.C82_from_dict",
    "HS.C82_loads_partial",
    "HS.C82_shallow",
    "HS.C82_schedules_false"
   ],
   "note": "C82_from_dict: every type, hooks, reordering. C82_loads_partial: every loader with overrides, when both files load. C82_shallow: with schedules at most two fields deep the reordered file loads and registers the same schedules. C82_schedules_false: three fields deep, the order of two sections decides whether the file is accepted (KeyError). Assumed: functions in MapFieldValue rules do not depend on the order, constants in rules and parsed override values have distinct keys."
  },
  {
   "property": "C83",
   "status": "partial",
   "theorems": [
    "HS.C83_added_partial",
    "HS.C83_default_removed_partial",
    "HS.C83_false",
    "HS.C83_omitted_false"
   ],
   "note": "Proved for files that give the object around the field, proposed rules about separate fields, unversioned nested classes; for removed defaults of fields with atomic values. C83_false: a file that leaves out the object around a new field loads in the old class and raises a TypeError in the new one, although the proposed rules were adopted.  C83_omitted_false: this is so for every class and every such file, whatever AddDefault inserts."
  },
  {
   "property": "C84",
   "status": "partial",
   "theorems": [
    "HS.C84_lookup",
    "HS.C84_found_partial",
    "HS.C84_listed",
    "HS.C84_own_false",
    "HS.C84_order_false",
    "HS.C84_section_false"
   ],
   "note": "Proved for every hierarchy: which description is found (C84_lookup), that one is found exactly if some class gives one, and the right one if all that describe the field agree; and that it is then on the line of the field (C84_listed). False of the code: a base class overrides the class itself, the last base wins, and fields that have fields themselves are listed without description."
  },
  {
   "property": "C85",
   "status": "partial",
   "theorems": [
    "HS.C85_listing_partial",
    "HS.C85_query_partial",
    "HS.C85_multiline_false"
   ],
   "note": "Proved for all classes whose field names are identifiers, with types, values and descriptions written on one line. False of the code for descriptions of several lines."
  },
  {
   "property": "C86",
   "status": "partial",
   "theorems": [
    "HS.C86_text_partial",
    "HS.C86_changed_partial",
    "HS.C86_help_partial",
    "HS.C86_union_false"
   ],
   "note": "Proved for all types whose class names and values are written without brackets, commas, blanks and the like, and without dataclasses directly inside a Tuple: same text exactly if same type, where a dataclass counts as its name. False of the code beyond that: help does not show the fields of the dataclasses inside a union, so two classes that accept different files print the same (C86_union_false)."
  },
  {
   "property": "C87",
   "status": "proved",
   "theorems": [
    "HS.C87_blamed",
    "HS.C87_stays",
    "HS.C87_class",
    "HS.C87_text",
    "HS.C87_union_false",
    "HS.C87_renamed_false",
    "HS.C87_silent_false",
    "HS.C87_dotted_false"
   ],
   "note": "The model with messages is proved equal to the model without them (drop_fromDict). The _false theorems refute stronger readings: the value named may be one of the declared types of a union, the place is that after the upgrade and need not be in the file, unknown fields and enum values are reported without a place, and a key with a dot makes the text ambiguous."
  },
  {
   "property": "C88",
   "status": "proved",
   "theorems": [
    "HS.C88_listed",
    "HS.C88_needed",
    "HS.C88_order",
    "HS.C88_order_false"
   ],
   "note": "C88_order_false: the message (which class is reported) does depend on the order of the set, so it can differ between runs of the same program."
  },
  {
   "property": "C89",
   "status": "partial",
   "theorems": [
    "HS.C89_created",
    "HS.C89_plain",
    "HS.C89_first",
    "HS.C89_stored_false",
    "HS.C89_same_dict_false"
   ],
   "note": "True if upgrade_rules creates the rules when it is called (C89_created), and for rules created once whose defaults are no dicts (C89_plain); false for dict defaults in rules that are created once (C89_stored_false), where only the first load is right (C89_first), and for a dict of the caller that is loaded twice (C89_same_dict_false). Rules on the class itself; sharing through lists and nested versioned classes is left out."
  },
  {
   "property": "C90",
   "status": "partial",
   "theorems": [
    "HS.C90_partial",
    "HS.C90_run_partial",
    "HS.C90_overrides_partial",
    "HS.C90_any",
    "HS.C90_any_run_partial"
   ],
   "note": "every pair of definitions of a versioned config class with an INFO report, every checkpoint (C90_partial) and every history of processes with crashes (C90_run_partial; with overrides: C90_overrides_partial). That the config documents in the checkpoints are plain, say their version and mark nothing as weak is proved (dump_doc, typedDump_raw). Missing: what is missing in C27 (renamed variants, changed types with Optional inside, empty dataclasses, ints beyond the float range, ignore_extra), C39 (schedules at most two deep) and C72; the state class does not change.  For any change of the class, compatible or not: the state is restored as it was whenever the config file loads with the new class (C90_any, C90_any_run_partial)."
  },
  {
   "property": "C91",
   "status": "partial",
   "theorems": [
    "HS.C91_no_checkpoint",
    "HS.C91_migrated_partial"
   ],
   "note": "C91_no_checkpoint has no conditions besides those of the statement (a state class that inherits from Lazy, a pickled field of the class, no permission). It says that a step raises when no directory with a checkpoint name was there at the beginning; when there is one with the name of the step, the step writes nothing. C91_migrated_partial has the conditions of C72 on the run (RunOK, SnapOK: a state whose Serializables are direct fields, checkpoint keys that grow)."
  },
  {
   "property": "C92",
   "status": "partial",
   "theorems": [
    "HS.C92_kept",
    "HS.C92_only",
    "HS.C92_scheduled",
    "HS.C92_initial",
    "HS.C92_saved_partial",
    "HS.C92_override_false",
    "HS.C92_scheduled_stays"
   ],
   "note": "Kept, only, scheduled and initial hold for every history on one manager with exceptions (conditions: the value is no object; no schedule at or above the field). The restart (C92_saved_partial, and C72 whose histories now have these assignments) needs a value of the declared type that YAML stores exactly (AssignOK) and the conditions of C72. False of fields for which an override was given: C92_override_false."
  },
  {
   "property": "C93",
   "status": "proved",
   "theorems": [
    "HS.C93_exact",
    "HS.C93_order",
    "HS.C93_uses",
    "HS.C93_builds",
    "HS.C93_cycle",
    "HS.C93_acyclic",
    "HS.C93_manager",
    "HS.C93_assigned_false",
    "HS.C93_assign_unread",
    "HS.C93_assign_read"
   ],
   "note": "For histories of reads; the fields that deserialize uses are given per class (deps), as in C49. C93_manager lifts it to the state of a StateManager once it is loaded. Assignments: C93_assign_read, and C93_assign_unread: an assignment to a lazy field before its first read has no effect on anything (the defect of C49, witness C93_assigned_false)."
  },
  {
   "property": "C94",
   "status": "partial",
   "theorems": [
    "HS.C94_exact",
    "HS.C94_config",
    "HS.C94_once",
    "HS.C94_when_false",
    "HS.C94_user",
    "HS.C94_user_value",
    "HS.C94_scheduled"
   ],
   "note": "C94_exact: after every history (operations may raise) an access returns v iff v is the value of the field (FieldVal of C93) for deserialize with the config that manager.config returns before and after the access. C94_config: its fields without schedule are as loaded. C94_once: a field that has been read keeps its value through all operations except an assignment to it. C94_when_false: the value of a field, and what the next checkpoint stores, depends on whether it was read before the step. Missing: a deserialize that changes the config, and schedules over a state attribute that is itself a lazy field.  C94_user: the same with assignments of the user to the config anywhere in the history. C94_user_value: a value that the user assigned to a field without schedule is in the config that deserialize gets, whatever happened since.  C94_scheduled: from a step that returned up to the next step, scheduled fields of that config have the values of their schedules at the state of the step."
  },
  {
   "property": "C95",
   "status": "proved",
   "theorems": [
    "HS.C95_load",
    "HS.C95_loads",
    "HS.C95_manager",
    "HS.C95_load_overrides",
    "HS.C95_manager_overrides"
   ],
   "note": "The parse of the texts is trusted: `loads` is modelled on the document {}. The manager is that of Model/Manager; without exceptions and without assignments of the user to the config.  The values of the overridden fields are C47_overrides and C15."
  },
  {
   "property": "C96",
   "status": "proved",
   "theorems": [
    "HS.C96_instance",
    "HS.C96_mixin",
    "HS.C96_class",
    "HS.C96_made",
    "HS.C96_already"
   ],
   "note": "For every hierarchy of classes. Python's class statement is trusted to compute the C3 merge as modelled; metaclass and layout conflicts are not modelled, nor the names that the class statement itself sets (__doc__, __module__)."
  }
 ]
}
