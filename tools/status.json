{
 "C02": {
  "note": "From the schema text: C02_parsed_schema_no_panic and, with multipleOf, C02_parsed_schema_with_multiples_no_panic. Accepted schemas that do panic are exhibited (_violation theorems)."
 },
 "C10": {
  "note": "With patternProperties the claim is false; exhibited."
 },
 "C11": {
  "note": "maxProperties 0 and a larger configured default minimum are exhibited as violations."
 },
 "C12": {
  "status": "partial",
  "note": "Full claim is false for closed objects (C12_closed_object_violation); C12_minProperties is the open case, C12_minProperties_closed_partial what remains for the closed one."
 },
 "C13": {
  "note": "The proviso is necessary: C13_collision_violation."
 },
 "C15": {
  "note": "maxItems 0 is ignored, and so is maxItems with additionalItems false (both exhibited)."
 },
 "C18": {
  "note": "Uniqueness against tuple items is false: C18_tuple_violation."
 },
 "C21": {
  "status": "partial",
  "note": "Full in exact arithmetic. In double arithmetic, without multipleOf, proved for inclusive bounds of any size and for exclusive bounds up to 128, and false for larger ones: C21_exclusive_minimum_iff says exactly which. multipleOf in double arithmetic is proved for integers up to a million (C21_multiples_double_partial) and for multiples of a quarter up to 250000 (C21_quarters_double_partial), and false beyond 1475739 (C21_snapped_multiple_violation) beside exclusive bounds (C21_exclusive_multiple_violation) and for decimal fractions from 32 on (C21_decimal_multiple_violation); other fractions below that are missing."
 },
 "C22": {
  "note": "Integers in any lawful arithmetic, numbers in exact arithmetic. In double arithmetic an interval emptied by an exclusive bound is rejected exactly for bounds up to 128 (C22_empty_interval_rejected_iff). The converse is false: C22_satisfiable_rejected_violation; C88 says when it holds."
 },
 "C23": {
  "note": "maxLength 0 is ignored: C23_zero_violation."
 },
 "C24": {
  "status": "partial",
  "note": "Full for a single type. For a list of types the code can also emit null when a listed type is unsatisfiable (C24_type_list_violation); the partial theorem proves that this is the only other case."
 },
 "C25": {
  "note": "The any-character class can emit a string that does not match: C25_dot_class_violation."
 },
 "C26": {
  "note": "Classes containing only NUL in a range do panic: exhibited."
 },
 "C30": {
  "status": "partial",
  "note": "Full for a single conditional; for several conditionals the joint claim is false (exhibited) and the last one alone is proved."
 },
 "C32": {
  "note": "Objects are not reproducible: C32_object_violation."
 },
 "C35": {
  "note": "enum and const on one schema: the const is lost (exhibited)."
 },
 "C36": {
  "note": "items:false is dropped by a merge (exhibited)."
 },
 "C37": {
  "note": "False beyond six decimals (exhibited)."
 },
 "C38": {
  "note": "For bounds above 1e9 used as infinity the exclusion fails (exhibited)."
 },
 "C39": {
  "status": "partial",
  "note": "Full for integers; for numbers proved apart from the gap of the step used at exclusive bounds (both exhibited)."
 },
 "C41": {
  "note": "A pre-existing enum is not filtered: C41_enum_violation. The iteration bound is the code's own limit."
 },
 "C44": {
  "note": "False for document names containing '|' (exhibited)."
 },
 "C49": {
  "note": "Statement covers the URLs requested by the library. Redirects followed by net/http contact other hosts: C49_redirect_violation."
 },
 "C50": {
  "note": "A name containing '#' is checked before it is cut: C50_hash_violation."
 },
 "C51": {
  "status": "partial",
  "note": "False of the code (C51_allowed_paths_violation); the theorems state exactly what the check does instead."
 },
 "C53": {
  "note": "Two shapes that do not round-trip are exhibited."
 },
 "C61": {
  "status": "partial",
  "note": "False of the code for members of objects and for lists of types (both exhibited); proved that a cut-off part of an array, of a combination or of a condition is always reported, wherever it lies. Parts that only appear by merging are missing."
 },
 "C62": {
  "note": "A name both required and negated is a silent contradiction (exhibited)."
 },
 "C63": {
  "note": "anyOf branches of different schemas are concatenated (exhibited)."
 },
 "C64": {
  "status": "partial",
  "note": "False of the code: proved that both keywords are always dropped."
 },
 "C65": {
  "status": "partial",
  "note": "False of the code when types differ (exhibited); proved when they agree. For schemas without references and nested allOf the outcome is exact: the last declared type wins (C65_last_type_wins), and the claim holds if and only if that one is the strictest (C65_intersection_iff_last_strictest)."
 },
 "C45": {
  "note": "Pointers ending in a keyword, into arrays, into absent keywords and with escapes are exhibited as violations."
 },
 "C54": {
  "note": "const/enum contents, a property called $ref and external references in validator texts are exhibited."
 },
 "C55": {
  "note": "A misspelt type and an empty enum are silently accepted (exhibited)."
 },
 "C60": {
  "status": "partial",
  "note": "False of the code when two positions share a name: proved when they do, that the first schema wins, and that a fresh name uses its own schema."
 },
 "C57": {
  "note": "Also exhibited: a space in a list is part of the host name, flags are ignored when the schema comes from stdin, and --allow-outside-cwd or --allow-insecure alone give access to nothing."
 },
 "C58": {
  "note": "C58_race_violation: a file created by another process between the check and the creation is overwritten; C58_truncated_file_stays: a failed write leaves the partial file."
 },
 "C59": {
  "note": "For the formats json-pointer and relative-json-pointer the generated text is rejected by the checker (C59_pointer_violation)."
 },
 "C66": {
  "status": "partial",
  "note": "Exact for uuid, json-pointer, relative-json-pointer and duration. Hostname, ipv4 and time accept every text of the format and (C66_*_partial, C66_time_*_exact) decide exactly within the shape; they also accept texts outside it, exhibited by the _violation theorems. The other formats depend on net/url, net/mail and time.Parse, which are parameters of the model."
 },
 "C56": {
  "status": "partial",
  "note": "Proved end to end for every schema that is, at every place, supported (Spec/Valid.lean: type and type lists, properties, required, additionalProperties, items, prefixItems, contains, lengths, counts, numeric keywords, patterns, patternProperties whose patterns do not overlap, enum, const, local $refs, any nesting) or a combination with allOf and anyOf of schemas that agree on types (Spec/Combine.lean: object, array, string and number keywords, enum and const at places that only list values, nested allOf, any nesting; members may be references to definitions that contain no references, if a base location is given), or a choice with oneOf or a condition with if, then and else of such schemas, if the validation library judges the alternatives correctly and the names derived from their places differ, or an exclusion with not of listed values, of a pattern or of required names beside other keywords, or a choice with anyOf and nothing beside it between schemas of any types, any nesting, or references to definitions that contain no references, or a choice with oneOf and nothing beside it between schemas of any types. Missing: other negated schemas; oneOf, if and not mixed with allOf or anyOf; patternProperties and deeper references inside combinations, references to other documents. Excluded because the code is wrong there: the C56 _violation theorems."
 },
 "C68": {
  "status": "partial",
  "note": "The full claim is false (five _violation theorems). Proved for texts without these features; identifiers ($id) inside schemas are excluded too. Termination is not part of the claim."
 },
 "C69": {
  "status": "partial",
  "note": "The full claim is false (two _violation theorems, for every amount of fuel). Proved: every schema text without references is parsed to an answer, for every keyword, nesting and option (C69_no_references_ends_partial); so is every schema whose references name definitions of the same document, none leading back to itself, without inner identifiers and fetchers (C69_acyclic_references_end_partial); recursive references are allowed wherever parsing does not combine schemas with them (C69_recursive_references_end_partial); once there is an answer it does not depend on the fuel (C69_more_fuel_same_answer)."
 },
 "C70": {
  "status": "partial",
  "note": "Proved under the conditions of C56 (base location given, fetching disabled, no identifiers, referred definitions free of references). False with the default options: C70_default_base_violation, and for every schema without identifiers C70_default_base_always_violation. Missing: definitions that contain references themselves."
 },
 "C71": {
  "status": "partial",
  "note": "False in general: C71_shared_definition_violation. For combinations beside each other C70_member_references_hold_partial applies to each of them."
 },
 "C14": {
  "note": "With additionalItems false minItems is ignored: C14_additionalItems_violation."
 },
 "C16": {
  "note": "With the legacy items array additionalItems:false is ignored: C16_additionalItems_violation."
 },
 "C72": {
  "note": "With an items array additionalItems is not used: C72_items_array_violation."
 },
 "C73": {
  "note": "Several errors at one place: only the newest is reported, C73_overwritten_violation. That (document, path) pairs have distinct printed names is a hypothesis where it matters (C73_single_document discharges it)."
 },
 "C74": {
  "note": "With -verbose other text precedes the value: C74_verbose_violation. The texts of -help, -version and of the generator tree are parameters."
 },
 "C75": {
  "status": "partial",
  "note": "Proved for enum, const, null, boolean, integers, also with multipleOf between integer bounds (for the type number up to 1475739), numbers with inclusive bounds (one near every number of the range, C87), strings with or without lengths, patterns (C82) and formats, arrays without contains, objects of declared members, lists of types, references to the document and its definitions, anyOf, oneOf for the values that are valid for one alternative only, both alone or beside agreeing keywords, in any nesting and through cycles, and allOf of agreeing members without references or nested allOf (members of objects and items that one of them declares), and not with listed values, a pattern or required names beside other keywords. Missing: conditions, references and allOf as alternatives beside other keywords, numbers that are not integers beside exclusive bounds or a fractional factor, invented members of objects. The values at the limits that are never drawn are exhibited by the _violation theorems."
 },
 "C76": {
  "status": "partial",
  "note": "Proved for pairs of schemas that are Separable (Spec/Keep.lean). Missing: names and tuple positions mentioned only by the negation beside additionalProperties or items (false: C76_closed_object_violation, C76_closed_tuple_violation), listed values beside a negated factor (false: C76_listed_bound_violation), a negated factor in rounded arithmetic, and bounds beyond 2^51."
 },
 "C77": {
  "status": "partial",
  "note": "Proved for the options for strings, the parse depth and the defaults. For property names it is proved when both records of regular expression options agree (C77_name_repetitions_partial): the full claim is false of the code, C77_name_options_violation (parse.go 436-437)."
 },
 "C78": {
  "status": "partial",
  "note": "Proved when RelativeTo is set, and up to the first file. After a file has been read the claim is false of the code (C78_reused_options_violation, parse.go 213-215); C78_after_file_partial says exactly what happens instead."
 },
 "C80": {
  "status": "partial",
  "note": "Identifiers and references to them are proved for schemas whose member names contain no slash. That the reference is the same as the local one is proved when RelativeTo is given. Missing because false of the code: names with slashes (C80_slash_violation), RelativeTo unset (C80_default_base_violation), relative references inside a schema with an identifier (C80_relative_reference_violation), $id in constants (C80_constant_violation)."
 },
 "C81": {
  "status": "partial",
  "note": "The refusal of references through allOf and the outcomes of following a reference are proved in full. Local references are proved for states in which the parser has not last looked into another document. Missing because false of the code: C81_other_document_violation, C81_dangling_violation, C81_nested_definition_violation, C81_other_name_violation."
 },
 "C82": {
  "status": "partial",
  "note": "Proved for expressions without dots, with any-character only if not restricted to ASCII, and with classes of at most 100000 characters that do not contain NUL. Missing because false of the code: C82_dot_violation, C82_any_violation, C82_large_class_violation, C82_nul_violation."
 },
 "C84": {
  "status": "partial",
  "note": "False for arbitrary texts: C84_collision_violation. Proved for texts that differ in one character and for continuations, up to 2^20 bytes. What math/rand makes of the seed is not modelled."
 },
 "C88": {
  "note": "Integers in any lawful arithmetic, numbers in exact arithmetic. False for integers beside fractional exclusive bounds: C88_fractional_exclusive_violation."
 }
}