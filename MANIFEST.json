{
 "claims": [
  {
   "property": "C01",
   "status": "proved",
   "theorems": [
    "Chaff.C01_generate_terminates",
    "Chaff.C01_generate_terminates_table"
   ],
   "note": ""
  },
  {
   "property": "C02",
   "status": "proved",
   "theorems": [
    "Chaff.C02_generate_no_panic",
    "Chaff.C02_root_no_panic",
    "Chaff.C02_number_safe",
    "Chaff.C02_empty_types_violation",
    "Chaff.C02_multipleOf_overflow_violation",
    "Chaff.C02_parsed_schema_no_panic",
    "Chaff.C02_parsed_schema_with_multiples_no_panic",
    "Chaff.C02_empty_type_list_violation"
   ],
   "note": "From the schema text: C02_parsed_schema_no_panic and, with multipleOf, C02_parsed_schema_with_multiples_no_panic. Accepted schemas that do panic are exhibited (_violation theorems)."
  },
  {
   "property": "C03",
   "status": "proved",
   "theorems": [
    "Chaff.C03_reference_stack_balanced",
    "Chaff.C03_reference_stack_bounded"
   ],
   "note": ""
  },
  {
   "property": "C04",
   "status": "proved",
   "theorems": [
    "Chaff.C04_no_reference_reentered",
    "Chaff.C04_cyclic_reference_cut"
   ],
   "note": ""
  },
  {
   "property": "C05",
   "status": "proved",
   "theorems": [
    "Chaff.C05_complexity_monotone",
    "Chaff.C05_cutoff_immediate"
   ],
   "note": ""
  },
  {
   "property": "C06",
   "status": "proved",
   "theorems": [
    "Chaff.C06_budget_range",
    "Chaff.C06_budget_full",
    "Chaff.C06_budget_cutoff",
    "Chaff.C06_budget_antitone"
   ],
   "note": ""
  },
  {
   "property": "C07",
   "status": "proved",
   "theorems": [
    "Chaff.C07_defaults",
    "Chaff.C07_defaults_idempotent",
    "Chaff.C07_suppressFallback_stuck"
   ],
   "note": ""
  },
  {
   "property": "C08",
   "status": "proved",
   "theorems": [
    "Chaff.C08_randomInt_range",
    "Chaff.C08_randomInt_onto",
    "Chaff.C08_randomInt_self",
    "Chaff.C08_randomInt_panic"
   ],
   "note": ""
  },
  {
   "property": "C09",
   "status": "proved",
   "theorems": [
    "Chaff.C09_required_present",
    "Chaff.C09_object_keys_distinct",
    "Chaff.C09_schema_required"
   ],
   "note": ""
  },
  {
   "property": "C10",
   "status": "proved",
   "theorems": [
    "Chaff.C10_additionalProperties_false",
    "Chaff.C10_patternProperties_violation",
    "Chaff.C10_schema_closed"
   ],
   "note": "With patternProperties the claim is false; exhibited."
  },
  {
   "property": "C11",
   "status": "proved",
   "theorems": [
    "Chaff.C11_maxProperties",
    "Chaff.C11_default_minimum_violation",
    "Chaff.C11_zero_violation",
    "Chaff.C11_schema_maxProperties"
   ],
   "note": "maxProperties 0 and a larger configured default minimum are exhibited as violations."
  },
  {
   "property": "C12",
   "status": "partial",
   "theorems": [
    "Chaff.C12_minProperties",
    "Chaff.C12_minProperties_closed_partial",
    "Chaff.C12_closed_object_violation",
    "Chaff.C12_schema_minProperties"
   ],
   "note": "Full claim is false for closed objects (C12_closed_object_violation); C12_minProperties is the open case, C12_minProperties_closed_partial what remains for the closed one."
  },
  {
   "property": "C13",
   "status": "proved",
   "theorems": [
    "Chaff.C13_declared_values",
    "Chaff.C13_collision_violation",
    "Chaff.C13_schema_entries"
   ],
   "note": "The proviso is necessary: C13_collision_violation."
  },
  {
   "property": "C14",
   "status": "proved",
   "theorems": [
    "Chaff.C14_minItems",
    "Chaff.C14_schema_minItems",
    "Chaff.C14_additionalItems_violation"
   ],
   "note": "With additionalItems false minItems is ignored: C14_additionalItems_violation."
  },
  {
   "property": "C15",
   "status": "proved",
   "theorems": [
    "Chaff.C15_maxItems",
    "Chaff.C15_zero_violation",
    "Chaff.C15_schema_maxItems",
    "Chaff.C15_additionalItems_violation"
   ],
   "note": "maxItems 0 is ignored, and so is maxItems with additionalItems false (both exhibited)."
  },
  {
   "property": "C16",
   "status": "proved",
   "theorems": [
    "Chaff.C16_tuple_positions",
    "Chaff.C16_closed_tuple",
    "Chaff.C16_schema_positions",
    "Chaff.C16_schema_closed",
    "Chaff.C16_additionalItems_violation"
   ],
   "note": "With the legacy items array additionalItems:false is ignored: C16_additionalItems_violation."
  },
  {
   "property": "C17",
   "status": "proved",
   "theorems": [
    "Chaff.C17_contains",
    "Chaff.C17_schema_contains"
   ],
   "note": ""
  },
  {
   "property": "C18",
   "status": "proved",
   "theorems": [
    "Chaff.C18_uniqueItems",
    "Chaff.C18_tuple_violation",
    "Chaff.C18_schema_uniqueItems"
   ],
   "note": "Uniqueness against tuple items is false: C18_tuple_violation."
  },
  {
   "property": "C19",
   "status": "proved",
   "theorems": [
    "Chaff.C19_enum",
    "Chaff.C19_const",
    "Chaff.C19_unsatisfiable_reported"
   ],
   "note": ""
  },
  {
   "property": "C20",
   "status": "proved",
   "theorems": [
    "Chaff.C20_integers"
   ],
   "note": ""
  },
  {
   "property": "C21",
   "status": "partial",
   "theorems": [
    "Chaff.C21_numbers_exact",
    "Chaff.C21_numbers_double_partial",
    "Chaff.C21_exclusive_violation",
    "Chaff.C21_exclusive_multiple_violation",
    "Chaff.C21_exclusive_minimum_iff",
    "Chaff.C21_multiples_double_partial",
    "Chaff.C21_snapped_multiple_violation",
    "Chaff.C21_decimal_multiple_violation",
    "Chaff.C21_quarters_double_partial"
   ],
   "note": "Full in exact arithmetic. In double arithmetic, without multipleOf, proved for inclusive bounds of any size and for exclusive bounds up to 128, and false for larger ones: C21_exclusive_minimum_iff says exactly which. multipleOf in double arithmetic is proved for integers up to a million (C21_multiples_double_partial) and for multiples of a quarter up to 250000 (C21_quarters_double_partial), and false beyond 1475739 (C21_snapped_multiple_violation) beside exclusive bounds (C21_exclusive_multiple_violation) and for decimal fractions from 32 on (C21_decimal_multiple_violation); other fractions below that are missing."
  },
  {
   "property": "C22",
   "status": "proved",
   "theorems": [
    "Chaff.C22_contradictory_number_rejected",
    "Chaff.C22_contradictory_integer_rejected",
    "Chaff.C22_satisfiable_rejected_violation",
    "Chaff.C22_empty_interval_rejected_iff"
   ],
   "note": "Integers in any lawful arithmetic, numbers in exact arithmetic. In double arithmetic an interval emptied by an exclusive bound is rejected exactly for bounds up to 128 (C22_empty_interval_rejected_iff). The converse is false: C22_satisfiable_rejected_violation; C88 says when it holds."
  },
  {
   "property": "C23",
   "status": "proved",
   "theorems": [
    "Chaff.C23_string_lengths",
    "Chaff.C23_zero_violation"
   ],
   "note": "maxLength 0 is ignored: C23_zero_violation."
  },
  {
   "property": "C24",
   "status": "partial",
   "theorems": [
    "Chaff.C24_single_type",
    "Chaff.C24_type_list_partial",
    "Chaff.C24_type_list_violation"
   ],
   "note": "Full for a single type. For a list of types the code can also emit null when a listed type is unsatisfiable (C24_type_list_violation); the partial theorem proves that this is the only other case."
  },
  {
   "property": "C25",
   "status": "proved",
   "theorems": [
    "Chaff.C25_generated_matches",
    "Chaff.C25_pattern_text",
    "Chaff.C25_dot_class_violation"
   ],
   "note": "The any-character class can emit a string that does not match: C25_dot_class_violation."
  },
  {
   "property": "C26",
   "status": "proved",
   "theorems": [
    "Chaff.C26_build_no_panic",
    "Chaff.C26_run_no_panic",
    "Chaff.C26_pattern_no_panic",
    "Chaff.C26_nul_class_violation",
    "Chaff.C26_dot_violation"
   ],
   "note": "Classes containing only NUL in a range do panic: exhibited."
  },
  {
   "property": "C27",
   "status": "proved",
   "theorems": [
    "Chaff.C27_state_nonzero",
    "Chaff.C27_int63_range",
    "Chaff.C27_streams_distinct",
    "Chaff.C27_returns_to_seed"
   ],
   "note": ""
  },
  {
   "property": "C28",
   "status": "proved",
   "theorems": [
    "Chaff.C28_oneOf_exactly_one",
    "Chaff.C28_every_alternative_checked"
   ],
   "note": ""
  },
  {
   "property": "C29",
   "status": "proved",
   "theorems": [
    "Chaff.C29_not_constraints"
   ],
   "note": ""
  },
  {
   "property": "C30",
   "status": "partial",
   "theorems": [
    "Chaff.C30_if_then_else",
    "Chaff.C30_several_conditionals_partial",
    "Chaff.C30_two_conditionals_violation",
    "Chaff.C30_conditional_applied"
   ],
   "note": "Full for a single conditional; for several conditionals the joint claim is false (exhibited) and the last one alone is proved."
  },
  {
   "property": "C31",
   "status": "proved",
   "theorems": [
    "Chaff.C31_retries_bounded",
    "Chaff.C31_conditional_retries_bounded"
   ],
   "note": ""
  },
  {
   "property": "C32",
   "status": "proved",
   "theorems": [
    "Chaff.C32_seed_reproducible",
    "Chaff.C32_object_violation"
   ],
   "note": "Objects are not reproducible: C32_object_violation."
  },
  {
   "property": "C33",
   "status": "proved",
   "theorems": [
    "Chaff.C33_length_bounds",
    "Chaff.C33_item_bounds",
    "Chaff.C33_contains_bounds",
    "Chaff.C33_property_bounds",
    "Chaff.C33_number_bounds",
    "Chaff.C33_flat"
   ],
   "note": ""
  },
  {
   "property": "C34",
   "status": "proved",
   "theorems": [
    "Chaff.C34_required_names",
    "Chaff.C34_declared_names"
   ],
   "note": ""
  },
  {
   "property": "C35",
   "status": "proved",
   "theorems": [
    "Chaff.C35_allowed_values",
    "Chaff.C35_disjoint_reported",
    "Chaff.C35_enum_and_const_violation"
   ],
   "note": "enum and const on one schema: the const is lost (exhibited)."
  },
  {
   "property": "C36",
   "status": "proved",
   "theorems": [
    "Chaff.C36_additional_properties_false",
    "Chaff.C36_additional_items_false",
    "Chaff.C36_unevaluated_items_false",
    "Chaff.C36_items_false_violation"
   ],
   "note": "items:false is dropped by a merge (exhibited)."
  },
  {
   "property": "C37",
   "status": "proved",
   "theorems": [
    "Chaff.C37_common_multiple",
    "Chaff.C37_integers",
    "Chaff.C37_seven_decimals_violation"
   ],
   "note": "False beyond six decimals (exhibited)."
  },
  {
   "property": "C38",
   "status": "proved",
   "theorems": [
    "Chaff.C38_range_excluded",
    "Chaff.C38_range_unchanged",
    "Chaff.C38_not_applied",
    "Chaff.C38_large_bound_violation",
    "Chaff.C38_spurious_conflict"
   ],
   "note": "For bounds above 1e9 used as infinity the exclusion fails (exhibited)."
  },
  {
   "property": "C39",
   "status": "partial",
   "theorems": [
    "Chaff.C39_range_excluded_partial",
    "Chaff.C39_integers_excluded",
    "Chaff.C39_numbers_excluded_partial",
    "Chaff.C39_absorbed_step_violation",
    "Chaff.C39_exclusive_gap_violation",
    "Chaff.C39_not_applied"
   ],
   "note": "Full for integers; for numbers proved apart from the gap of the step used at exclusive bounds (both exhibited)."
  },
  {
   "property": "C40",
   "status": "proved",
   "theorems": [
    "Chaff.C40_negated_types_removed",
    "Chaff.C40_nothing_left_reported"
   ],
   "note": ""
  },
  {
   "property": "C41",
   "status": "proved",
   "theorems": [
    "Chaff.C41_enumeration_sound",
    "Chaff.C41_enumeration_in_range",
    "Chaff.C41_enumeration_empty",
    "Chaff.C41_not_applied",
    "Chaff.C41_not_integer",
    "Chaff.C41_enum_violation"
   ],
   "note": "A pre-existing enum is not filtered: C41_enum_violation. The iteration bound is the code's own limit."
  },
  {
   "property": "C42",
   "status": "proved",
   "theorems": [
    "Chaff.C42_enum_left",
    "Chaff.C42_negated_values_checked"
   ],
   "note": ""
  },
  {
   "property": "C43",
   "status": "proved",
   "theorems": [
    "Chaff.C43_reference_text",
    "Chaff.C43_newline_reference_panics"
   ],
   "note": ""
  },
  {
   "property": "C44",
   "status": "proved",
   "theorems": [
    "Chaff.C44_cycle_keys",
    "Chaff.C44_has_resolved",
    "Chaff.C44_current_scope",
    "Chaff.C44_push_pop",
    "Chaff.C44_bar_violation"
   ],
   "note": "False for document names containing '|' (exhibited)."
  },
  {
   "property": "C45",
   "status": "proved",
   "theorems": [
    "Chaff.C45_pointer_resolves",
    "Chaff.C45_missing_name_reported",
    "Chaff.C45_keyword_end_violation",
    "Chaff.C45_array_index_violation",
    "Chaff.C45_absent_keyword_violation",
    "Chaff.C45_escape_violation",
    "Chaff.C45_array_index_never_resolves"
   ],
   "note": "Pointers ending in a keyword, into arrays, into absent keywords and with escapes are exhibited as violations."
  },
  {
   "property": "C46",
   "status": "proved",
   "theorems": [
    "Chaff.C46_scope_balanced",
    "Chaff.C46_merge_balanced",
    "Chaff.C46_parse_balanced"
   ],
   "note": ""
  },
  {
   "property": "C47",
   "status": "proved",
   "theorems": [
    "Chaff.C47_depth_bounded",
    "Chaff.C47_root_bounded",
    "Chaff.C47_too_deep"
   ],
   "note": ""
  },
  {
   "property": "C48",
   "status": "proved",
   "theorems": [
    "Chaff.C48_errors_kept",
    "Chaff.C48_merge_errors_kept",
    "Chaff.C48_documents_errors_kept",
    "Chaff.C48_errors_located",
    "Chaff.C48_reported_is_recorded"
   ],
   "note": ""
  },
  {
   "property": "C49",
   "status": "proved",
   "theorems": [
    "Chaff.C49_http_authorised",
    "Chaff.C49_http_direct",
    "Chaff.C49_http_disabled",
    "Chaff.C49_file_disabled",
    "Chaff.C49_none_enabled",
    "Chaff.C49_redirect_violation"
   ],
   "note": "Statement covers the URLs requested by the library. Redirects followed by net/http contact other hosts: C49_redirect_violation."
  },
  {
   "property": "C50",
   "status": "proved",
   "theorems": [
    "Chaff.C50_files_inside_cwd",
    "Chaff.C50_hash_violation",
    "Chaff.C50_refuses_dots_in_names"
   ],
   "note": "A name containing '#' is checked before it is cut: C50_hash_violation."
  },
  {
   "property": "C51",
   "status": "partial",
   "theorems": [
    "Chaff.C51_check_is_inverted",
    "Chaff.C51_only_files_not_in_allowed",
    "Chaff.C51_empty_refuses_all",
    "Chaff.C51_allowed_paths_violation"
   ],
   "note": "False of the code (C51_allowed_paths_violation); the theorems state exactly what the check does instead."
  },
  {
   "property": "C52",
   "status": "proved",
   "theorems": [
    "Chaff.C52_parsed_once",
    "Chaff.C52_loop_stops"
   ],
   "note": ""
  },
  {
   "property": "C53",
   "status": "proved",
   "theorems": [
    "Chaff.C53_roundtrip",
    "Chaff.C53_items_list_violation",
    "Chaff.C53_true_violation"
   ],
   "note": "Two shapes that do not round-trip are exhibited."
  },
  {
   "property": "C54",
   "status": "proved",
   "theorems": [
    "Chaff.C54_only_references_change",
    "Chaff.C54_references_made_absolute",
    "Chaff.C54_no_references_unchanged",
    "Chaff.C54_validator_text",
    "Chaff.C54_validator_text_same",
    "Chaff.C54_const_altered_violation",
    "Chaff.C54_property_called_ref_violation",
    "Chaff.C54_external_reference_dropped_violation"
   ],
   "note": "const/enum contents, a property called $ref and external references in validator texts are exhibited."
  },
  {
   "property": "C55",
   "status": "proved",
   "theorems": [
    "Chaff.C55_exactly_one_reading",
    "Chaff.C55_dispatch",
    "Chaff.C55_reference_siblings_ignored",
    "Chaff.C55_unsupported_reported",
    "Chaff.C55_inferred_type_generated",
    "Chaff.C55_unknown_type_violation",
    "Chaff.C55_empty_enum_violation"
   ],
   "note": "A misspelt type and an empty enum are silently accepted (exhibited)."
  },
  {
   "property": "C56",
   "status": "partial",
   "theorems": [
    "Chaff.C56_generated_values_are_valid_partial",
    "Chaff.C56_max_items_zero_violation",
    "Chaff.C56_required_undeclared_violation",
    "Chaff.C56_ref_sibling_violation",
    "Chaff.C56_unique_tuple_violation",
    "Chaff.C56_allOf_closed_violation",
    "Chaff.C56_allOf_types_violation",
    "Chaff.C56_allOf_tuple_violation",
    "Chaff.C56_same_names_violation",
    "Chaff.C56_contains_closed_violation",
    "Chaff.C56_max_contains_violation",
    "Chaff.C56_pattern_on_declared_violation",
    "Chaff.C56_overlapping_patterns_violation"
   ],
   "note": "Proved end to end for every schema that is, at every place, supported (Spec/Valid.lean: type and type lists, properties, required, additionalProperties, items, prefixItems, contains, lengths, counts, numeric keywords, patterns, patternProperties whose patterns do not overlap, enum, const, local $refs, any nesting) or a combination with allOf and anyOf of schemas that agree on types (Spec/Combine.lean: object, array, string and number keywords, enum and const at places that only list values, nested allOf, any nesting; members may be references to definitions that contain no references, if a base location is given), or a choice with oneOf or a condition with if, then and else of such schemas, if the validation library judges the alternatives correctly and the names derived from their places differ, or an exclusion with not of listed values, of a pattern or of required names beside other keywords, or a choice with anyOf and nothing beside it between schemas of any types, any nesting, or references to definitions that contain no references, or a choice with oneOf and nothing beside it between schemas of any types. Missing: other negated schemas; oneOf, if and not mixed with allOf or anyOf; patternProperties and deeper references inside combinations, references to other documents. Excluded because the code is wrong there: the C56 _violation theorems."
  },
  {
   "property": "C57",
   "status": "proved",
   "theorems": [
    "Chaff.C57_no_flags_no_access",
    "Chaff.C57_stdin_no_access",
    "Chaff.C57_http_needs_flag",
    "Chaff.C57_file_needs_flag",
    "Chaff.C57_outside_cwd_alone",
    "Chaff.C57_allow_insecure_alone",
    "Chaff.C57_space_in_list",
    "Chaff.C57_stdin_ignores_flags"
   ],
   "note": "Also exhibited: a space in a list is part of the host name, flags are ignored when the schema comes from stdin, and --allow-outside-cwd or --allow-insecure alone give access to nothing."
  },
  {
   "property": "C58",
   "status": "proved",
   "theorems": [
    "Chaff.C58_existing_untouched",
    "Chaff.C58_no_file_changes",
    "Chaff.C58_success_writes_result",
    "Chaff.C58_race_violation",
    "Chaff.C58_truncated_file_stays"
   ],
   "note": "C58_race_violation: a file created by another process between the check and the creation is overwritten; C58_truncated_file_stays: a failed write leaves the partial file."
  },
  {
   "property": "C59",
   "status": "proved",
   "theorems": [
    "Chaff.C59_checkers_never_panic",
    "Chaff.C59_duration_accepted",
    "Chaff.C59_pointer_violation"
   ],
   "note": "For the formats json-pointer and relative-json-pointer the generated text is rejected by the checker (C59_pointer_violation)."
  },
  {
   "property": "C60",
   "status": "partial",
   "theorems": [
    "Chaff.C60_names_collide",
    "Chaff.C60_own_schema_partial",
    "Chaff.C60_first_schema_wins_violation",
    "Chaff.C60_texts_permanent",
    "Chaff.C60_collision_violation"
   ],
   "note": "False of the code when two positions share a name: proved when they do, that the first schema wins, and that a fresh name uses its own schema."
  },
  {
   "property": "C61",
   "status": "partial",
   "theorems": [
    "Chaff.C61_silent_truncation_violation",
    "Chaff.C61_node_reported_partial",
    "Chaff.C61_reported_partial",
    "Chaff.C61_type_list_violation"
   ],
   "note": "False of the code for members of objects and for lists of types (both exhibited); proved that a cut-off part of an array, of a combination or of a condition is always reported, wherever it lies. Parts that only appear by merging are missing."
  },
  {
   "property": "C62",
   "status": "proved",
   "theorems": [
    "Chaff.C62_negated_names_and_patterns_enforced",
    "Chaff.C62_contradiction_silent_violation"
   ],
   "note": "A name both required and negated is a silent contradiction (exhibited)."
  },
  {
   "property": "C63",
   "status": "proved",
   "theorems": [
    "Chaff.C63_negations_kept",
    "Chaff.C63_conditionals_kept",
    "Chaff.C63_anyOf_branches_kept",
    "Chaff.C63_oneOf_branches_kept",
    "Chaff.C63_anyOf_concatenated_violation"
   ],
   "note": "anyOf branches of different schemas are concatenated (exhibited)."
  },
  {
   "property": "C64",
   "status": "partial",
   "theorems": [
    "Chaff.C64_dependent_keywords_dropped_violation"
   ],
   "note": "False of the code: proved that both keywords are always dropped."
  },
  {
   "property": "C65",
   "status": "partial",
   "theorems": [
    "Chaff.C65_same_type_kept_partial",
    "Chaff.C65_type_violation",
    "Chaff.C65_last_type_wins",
    "Chaff.C65_intersection_iff_last_strictest"
   ],
   "note": "False of the code when types differ (exhibited); proved when they agree. For schemas without references and nested allOf the outcome is exact: the last declared type wins (C65_last_type_wins), and the claim holds if and only if that one is the strictest (C65_intersection_iff_last_strictest)."
  },
  {
   "property": "C66",
   "status": "partial",
   "theorems": [
    "Chaff.C66_uuid_exact",
    "Chaff.C66_json_pointer_exact",
    "Chaff.C66_relative_pointer_exact",
    "Chaff.C66_duration_exact",
    "Chaff.C66_hostname_partial",
    "Chaff.C66_hostname_complete",
    "Chaff.C66_hostname_violation",
    "Chaff.C66_ipv4_complete",
    "Chaff.C66_ipv4_partial",
    "Chaff.C66_ipv4_violation",
    "Chaff.C66_time_offset_exact",
    "Chaff.C66_time_utc_exact",
    "Chaff.C66_time_violation"
   ],
   "note": "Exact for uuid, json-pointer, relative-json-pointer and duration. Hostname, ipv4 and time accept every text of the format and (C66_*_partial, C66_time_*_exact) decide exactly within the shape; they also accept texts outside it, exhibited by the _violation theorems. The other formats depend on net/url, net/mail and time.Parse, which are parameters of the model."
  },
  {
   "property": "C67",
   "status": "proved",
   "theorems": [
    "Chaff.C67_negations_enforced_together",
    "Chaff.C67_merging_keeps_exclusions"
   ],
   "note": ""
  },
  {
   "property": "C68",
   "status": "partial",
   "theorems": [
    "Chaff.C68_parsing_never_panics_partial",
    "Chaff.C68_newline_in_definition_name_violation",
    "Chaff.C68_negated_uniqueItems_violation",
    "Chaff.C68_nul_class_violation",
    "Chaff.C68_reference_through_missing_items_violation",
    "Chaff.C68_reference_beyond_list_violation"
   ],
   "note": "The full claim is false (five _violation theorems). Proved for texts without these features; identifiers ($id) inside schemas are excluded too. Termination is not part of the claim."
  },
  {
   "property": "C69",
   "status": "partial",
   "theorems": [
    "Chaff.C69_more_fuel_same_answer",
    "Chaff.C69_recursive_double_negation_violation",
    "Chaff.C69_allOf_at_depth_limit_violation",
    "Chaff.C69_no_references_ends_partial",
    "Chaff.C69_acyclic_references_end_partial",
    "Chaff.C69_recursive_references_end_partial"
   ],
   "note": "The full claim is false (two _violation theorems, for every amount of fuel). Proved: every schema text without references is parsed to an answer, for every keyword, nesting and option (C69_no_references_ends_partial); so is every schema whose references name definitions of the same document, none leading back to itself, without inner identifiers and fetchers (C69_acyclic_references_end_partial); recursive references are allowed wherever parsing does not combine schemas with them (C69_recursive_references_end_partial); once there is an answer it does not depend on the fuel (C69_more_fuel_same_answer)."
  },
  {
   "property": "C70",
   "status": "partial",
   "theorems": [
    "Chaff.C70_default_base_always_violation",
    "Chaff.C70_member_references_hold_partial",
    "Chaff.C70_default_base_violation",
    "Chaff.C70_identifier_violation"
   ],
   "note": "Proved under the conditions of C56 (base location given, fetching disabled, no identifiers, referred definitions free of references). False with the default options: C70_default_base_violation, and for every schema without identifiers C70_default_base_always_violation. Missing: definitions that contain references themselves."
  },
  {
   "property": "C71",
   "status": "partial",
   "theorems": [
    "Chaff.C71_shared_definition_violation"
   ],
   "note": "False in general: C71_shared_definition_violation. For combinations beside each other C70_member_references_hold_partial applies to each of them."
  },
  {
   "property": "C72",
   "status": "proved",
   "theorems": [
    "Chaff.C72_further_items",
    "Chaff.C72_items_array_violation"
   ],
   "note": "With an items array additionalItems is not used: C72_items_array_violation."
  },
  {
   "property": "C73",
   "status": "proved",
   "theorems": [
    "Chaff.C73_newest_kept",
    "Chaff.C73_hasErrors",
    "Chaff.C73_reported_was_recorded",
    "Chaff.C73_recorded_is_reported",
    "Chaff.C73_newest_is_reported",
    "Chaff.C73_single_document",
    "Chaff.C73_overwritten_violation"
   ],
   "note": "Several errors at one place: only the newest is reported, C73_overwritten_violation. That (document, path) pairs have distinct printed names is a hypothesis where it matters (C73_single_document discharges it)."
  },
  {
   "property": "C74",
   "status": "proved",
   "theorems": [
    "Chaff.C74_prints_the_value",
    "Chaff.C74_otherwise_silent",
    "Chaff.C74_verbose_names_errors",
    "Chaff.C74_verbose_violation"
   ],
   "note": "With -verbose other text precedes the value: C74_verbose_violation. The texts of -help, -version and of the generator tree are parameters."
  },
  {
   "property": "C75",
   "status": "partial",
   "theorems": [
    "Chaff.C75_attainable_values_are_generated_partial",
    "Chaff.C75_max_items_violation",
    "Chaff.C75_max_properties_violation",
    "Chaff.C75_multiple_violation",
    "Chaff.C75_exclusive_bound_violation"
   ],
   "note": "Proved for enum, const, null, boolean, integers, also with multipleOf between integer bounds (for the type number up to 1475739), numbers with inclusive bounds (one near every number of the range, C87), strings with or without lengths, patterns (C82) and formats, arrays without contains, objects of declared members, lists of types, references to the document and its definitions, anyOf, oneOf for the values that are valid for one alternative only, both alone or beside agreeing keywords, in any nesting and through cycles, and allOf of agreeing members without references or nested allOf (members of objects and items that one of them declares), and not with listed values, a pattern or required names beside other keywords. Missing: conditions, references and allOf as alternatives beside other keywords, numbers that are not integers beside exclusive bounds or a fractional factor, invented members of objects. The values at the limits that are never drawn are exhibited by the _violation theorems."
  },
  {
   "property": "C76",
   "status": "partial",
   "theorems": [
    "Chaff.C76_negation_keeps_keywords_partial",
    "Chaff.C76_combinations_kept",
    "Chaff.C76_closed_object_violation",
    "Chaff.C76_closed_tuple_violation",
    "Chaff.C76_listed_bound_violation"
   ],
   "note": "Proved for pairs of schemas that are Separable (Spec/Keep.lean). Missing: names and tuple positions mentioned only by the negation beside additionalProperties or items (false: C76_closed_object_violation, C76_closed_tuple_violation), listed values beside a negated factor (false: C76_listed_bound_violation), a negated factor in rounded arithmetic, and bounds beyond 2^51."
  },
  {
   "property": "C77",
   "status": "partial",
   "theorems": [
    "Chaff.C77_string_repetitions",
    "Chaff.C77_name_repetitions_partial",
    "Chaff.C77_parse_depth",
    "Chaff.C77_defaults",
    "Chaff.C77_name_options_violation"
   ],
   "note": "Proved for the options for strings, the parse depth and the defaults. For property names it is proved when both records of regular expression options agree (C77_name_repetitions_partial): the full claim is false of the code, C77_name_options_violation (parse.go 436-437)."
  },
  {
   "property": "C78",
   "status": "partial",
   "theorems": [
    "Chaff.C78_base_given",
    "Chaff.C78_up_to_first_file",
    "Chaff.C78_after_file_partial",
    "Chaff.C78_reused_options_violation",
    "Chaff.C78_references_beside_file"
   ],
   "note": "Proved when RelativeTo is set, and up to the first file. After a file has been read the claim is false of the code (C78_reused_options_violation, parse.go 213-215); C78_after_file_partial says exactly what happens instead."
  },
  {
   "property": "C79",
   "status": "proved",
   "theorems": [
    "Chaff.C79_tool_is_library",
    "Chaff.C79_rejections"
   ],
   "note": ""
  },
  {
   "property": "C80",
   "status": "partial",
   "theorems": [
    "Chaff.C80_identifiers_known",
    "Chaff.C80_fetched_identifiers_known",
    "Chaff.C80_reference_to_identifier",
    "Chaff.C80_same_as_pointer_partial",
    "Chaff.C80_relative_reference_violation",
    "Chaff.C80_slash_violation",
    "Chaff.C80_constant_violation",
    "Chaff.C80_default_base_violation"
   ],
   "note": "Identifiers and references to them are proved for schemas whose member names contain no slash. That the reference is the same as the local one is proved when RelativeTo is given. Missing because false of the code: names with slashes (C80_slash_violation), RelativeTo unset (C80_default_base_violation), relative references inside a schema with an identifier (C80_relative_reference_violation), $id in constants (C80_constant_violation)."
  },
  {
   "property": "C81",
   "status": "partial",
   "theorems": [
    "Chaff.C81_into_allOf_refused",
    "Chaff.C81_local_reference_partial",
    "Chaff.C81_following",
    "Chaff.C81_other_document_violation",
    "Chaff.C81_dangling_violation",
    "Chaff.C81_nested_definition_violation",
    "Chaff.C81_other_name_violation"
   ],
   "note": "The refusal of references through allOf and the outcomes of following a reference are proved in full. Local references are proved for states in which the parser has not last looked into another document. Missing because false of the code: C81_other_document_violation, C81_dangling_violation, C81_nested_definition_violation, C81_other_name_violation."
  },
  {
   "property": "C82",
   "status": "partial",
   "theorems": [
    "Chaff.C82_every_match_can_be_drawn_partial",
    "Chaff.C82_dot_violation",
    "Chaff.C82_any_violation",
    "Chaff.C82_large_class_violation",
    "Chaff.C82_nul_violation"
   ],
   "note": "Proved for expressions without dots, with any-character only if not restricted to ASCII, and with classes of at most 100000 characters that do not contain NUL. Missing because false of the code: C82_dot_violation, C82_any_violation, C82_large_class_violation, C82_nul_violation."
  },
  {
   "property": "C83",
   "status": "proved",
   "theorems": [
    "Chaff.C83_calls_start_afresh",
    "Chaff.C83_source_continues",
    "Chaff.C83_all_calls_made",
    "Chaff.C83_every_value_valid",
    "Chaff.C83_same_seed_same_values"
   ],
   "note": ""
  },
  {
   "property": "C84",
   "status": "partial",
   "theorems": [
    "Chaff.C84_seed_of_text",
    "Chaff.C84_one_character_partial",
    "Chaff.C84_continuation_partial",
    "Chaff.C84_collision_violation"
   ],
   "note": "False for arbitrary texts: C84_collision_violation. Proved for texts that differ in one character and for continuations, up to 2^20 bytes. What math/rand makes of the seed is not modelled."
  },
  {
   "property": "C85",
   "status": "proved",
   "theorems": [
    "Chaff.C85_unreached_limits_do_not_matter"
   ],
   "note": ""
  },
  {
   "property": "C86",
   "status": "proved",
   "theorems": [
    "Chaff.C86_merging_is_conjunction"
   ],
   "note": ""
  },
  {
   "property": "C87",
   "status": "proved",
   "theorems": [
    "Chaff.C87_no_gap_between_bounds",
    "Chaff.C87_maximum_missed_violation"
   ],
   "note": ""
  },
  {
   "property": "C88",
   "status": "proved",
   "theorems": [
    "Chaff.C88_two_integers_suffice",
    "Chaff.C88_fractional_exclusive_violation",
    "Chaff.C88_room_suffices"
   ],
   "note": "Integers in any lawful arithmetic, numbers in exact arithmetic. False for integers beside fractional exclusive bounds: C88_fractional_exclusive_violation."
  }
 ]
}