# Formal model of ryanolee/go-chaff in Lean 4

go-chaff turns a JSON Schema into a generator of random JSON documents.  This directory holds a model of its code in
Lean 4, function by function, and machine-checked proofs of 84 properties of it (`properties.jsonl`, `MANIFEST.json`).

Layout of `lean/Verif`:

* `Model/`  the code; every definition cites the Go file and lines it models and says where it simplifies;
* `Spec/`   small specifications (JSON equality, validity, regular languages, formats, references, ...) that do not use
  the model's functions on schemas or generators; what they share with the model is the data types;
* `Lemmas/` auxiliary lemmas, not meant to be read as claims;
* `Props/`  one file per area with the theorems `Cnn_...`, and beside them `example`s in which a concrete, non-trivial
  case meets their hypotheses.

Naming: `Cnn_..._partial` proves part of the property (its comment says what is missing); `Cnn_..._violation` exhibits a
concrete case in which the unchanged code does not do what the English claim says.

Other files: `seeded/` (wrong programs: `mutations.json`, results in `LOG.jsonl`), `tools/` (`manifest.py` writes
`MANIFEST.json`, `mutate.py` runs the wrong programs, `design.py` writes the appendix of this file).

## How the code is modelled

* **Outcomes.** A Go call is a function `State -> Res`, where `Res` is `ok value state`, `panic msg` or `oom`.  `oom`
  only exists because mutually recursive functions and loops are written with a fuel argument.  For generation C01
  proves that enough fuel always exists and that more does not change the answer.  For parsing more fuel never changes
  an answer (C69_more_fuel_same_answer); whether enough exists is the question of C69, and it does not for some schemas.
  Every other theorem about the parser holds for every amount of fuel, so it says nothing about parses that never end.
* **Randomness.** Two arbitrary infinite streams of naturals: `seeded` for `opts.Rand`, `ambient` for the global source
  used by faker, regen, funk.Shuffle and the iteration order of Go maps.  `Intn n` is `stream[i] % n` and panics for
  `n <= 0`.  Theorems quantify over all streams, hence over all random choices.
* **Map iteration.** A map is an association list with distinct keys; the list order is the iteration order.  Theorems
  about parsing quantify over all orders because they quantify over all lists; a generator that ranges over a map draws
  a permutation from `ambient`.
* **Floating point.** A `float64` is the rational it denotes; every arithmetic operation is followed by a rounding
  function.  Theorems quantify over every rounding with the laws of `Spec/Rounding.lean` (monotone, idempotent, exact on
  integers up to 2^53, ...), or are stated for exact arithmetic or for binary64 and say so.  `Model/Binary64.lean` defines
  binary64 and it is proved to have the laws.  Overflow to infinity and NaN are not modelled, except for the division by
  a zero `multipleOf`.  Conversion of out-of-range floats to `int` is a parameter (`Platform`).
* **Integers.** Go `int` is `Int` without overflow, except where the code converts floats or where overflow is the point
  (C02_multipleOf_overflow_violation).  The xorshift source uses 64-bit vectors.
* **Strings.** Lean strings, that is sequences of code points; the format checkers, which index bytes, work on lists of
  bytes.
* **Errors.** A short text instead of the full message.  Recorded errors form a list, newest first, with their key
  (document, path); the Go map keeps the newest of each key.
* **External code** is a parameter, quantified over: faker (`World.sentence`, `World.fakerFormat`), the regexp parser
  (`PEnv.rxParse`), Go's regexp matcher (`rxCompile`), the validator of santhosh-tekuri/jsonschema (`compile`: from the
  registered texts and a name to a predicate), its format assertions (`formats`), `net/url` (`PEnv.url`), HTTP
  (`httpGet`, `redirects`), the file system (`fs`), and the standard-library parsers the format checkers call (time, net, net/mail, net/url, regexp).
  What a theorem needs to know about them is a hypothesis in its statement.  The bundles of hypotheses are `EnvLaws` and
  `UrlLaws` (`Lemmas/PEvol.lean`: parsing a printed or resolved URL keeps scheme and host; real paths contain no `#`) and
  `FP.Lawful`; `demoEnv` and binary64 meet them.

## Trusted base

* Lean's kernel (4.33.0) and, for reading the statements, its elaborator.  Mathlib is used for tactics and for order and
  list lemmas; it is checked by the same kernel.
* Axioms: only `propext`, `Classical.choice` and `Quot.sound`.  No `sorry`, no `native_decide`, no `bv_decide`, no axiom
  of our own.  The appendix lists the axioms of every theorem.  Concrete runs are checked by `decide +kernel`, by `rfl`
  and by the tactic `kernel_rfl` (`Props/ParseEnds.lean`), which offers `Eq.refl` to the kernel and adds no trust.
* That the model is the code: the definitions were written from the Go text by hand.  Nothing of /repo was run.
* The Go runtime and the external code listed above, as far as the hypotheses describe them.

### Modelled

| module | Go |
|---|---|
| Rt, Util, Json, Float, Binary64, Rand, Options | outcomes, internal/util/util.go, rand/random.go, generator.go |
| Number | number.go |
| Regen, Xorshift | regex.go, internal/regen: regen.go, internal_generator.go, char_class.go, generator_error.go, rng.go |
| Calls | root.go, generator.go: several Generate calls |
| Gen | every `Generate` method: all_of, any_of/one_of (combination.go), array, boolean, const, constraint, enum, if, multiple_type, null, number, object, reference, root, string; reference_hander.go |
| Schema, SchemaJson | the schema structure of parse.go, json.go, multiple_type.go (decoding and encoding) |
| Doc | parser state, document.go, fetchers.go, error.go, walk.go, schema.go, reference_hander.go |
| RefPath | reference_path.go and the rewriting of references in document.go |
| Merge, Not | merge.go, not.go, constraint.go |
| Parse | parse.go and every `parse*` function, assert.go, root.go |
| Formats | internal/jsonschema/formats.go |
| Errors | error.go: the error map and its report |
| Cli | cli/cli.go |

### Not modelled

* `String()` methods, the printing helpers of regexp_format.go, and the texts printed by the CLI for help and version.
* Trivial wrappers: `GenerateWithDefaults`, `ParseSchemaString*`, `ParseSchemaFileWithDefaults`, constructors,
  `readStdin`, `hasStdin`, `checkErr`; utilities that nothing calls; the test utilities.
* The inside of external code (faker, regexp, jsonschema, net/url, net/http, os).  `isRegex` is `regexp.Compile`.
* Memory, time, and concurrency: the library starts no goroutine and uses no lock; two goroutines that share options
  are outside the model.
* **Aliasing.** Schema nodes are values here and shared pointers in Go; the model makes a new value each time.  Maps and
  slices written by a merge (`mergeProperties`, `mergePatternProperties`, `append` to `mergedIf` and `mergedNot`) are made
  by that merge, since it starts from an empty node.  The places where the code writes through a pointer that another
  node can see: `constraintCollection.Merge` in mergeSchemaNodes (its receiver is the collection of the first merged node
  that has one, so schemas that share this collection get the exclusions of the others too); `node.Type.MultipleTypes =
  typeAll` in parseNode's fallback, reached with an existing `Type` only for `"type": ""`; and `ParseSchemaFile`, which
  overwrites `opts.RelativeTo`.
* encoding/json matches keys case-insensitively and refuses `1.0` for an `int`; the model matches keys exactly and
  decodes integral numbers.  Duplicate keys in a JSON text are resolved before the model starts.
* In the CLI model a run that panics while parsing reports no fetches.  The fetch theorems (C49-C51) speak about parses
  that return.

## Per-property plan

For each property: what is modelled and how it is proved.  The exact theorems are in the appendix.

| id | modelled | proof |
|----|----------|-------|
| C01 | whole generator tree, `generate` with fuel | lexicographic measure (reference budget, tree height), induction |
| C02 | panics as outcomes | induction on fuel with a well-formedness invariant; from the schema text through C68; counterexamples by computation |
| C03-C05 | reference stack and complexity in the state | relational invariants by induction on fuel |
| C06-C08 | options, budget, RandomInt | arithmetic |
| C09-C13 | objectGenerator.Generate over arbitrary sub-generators; parseObject followed by it | loop invariants; the fields of the parsed generator read off the parser |
| C14-C18, C72 | arrayGenerator.Generate over arbitrary sub-generators; parseArray followed by it | loop invariants; the fields of the parsed generator read off the parser |
| C19 | enum/const | case analysis |
| C20-C22 | number.go over an arbitrary lawful rounding / exact | order and floor arithmetic |
| C23 | string loop | induction on the loop |
| C24 | typed outputs | case analysis over generators |
| C25-C27 | regen AST, char classes, xorshift | structural induction; linear algebra over bit vectors |
| C28-C31 | constrainedGenerator and its constraints | induction on attempts |
| C32 | two-stream noninterference | induction on fuel |
| C33-C37 | merge.go | `Spec/Merge.lean` gives the meaning of bounds; list lemmas |
| C38-C42, C62 | not.go | case analysis, loop invariants |
| C43-C45 | reference text, stack keys, pointer resolution | list induction |
| C46-C48 | parser with explicit state | relational invariants by induction on fuel |
| C49-C52 | document resolver and fetchers with a fetch log | state invariants |
| C53-C54 | json.go encode/decode on JSON trees, rewriting of references | structural induction |
| C55 | parseSchemaNode | decision logic against an independent table of precedence |
| C56 | parse + generate against `Spec/Valid.lean` | invariant of compiled generators, induction on the value's derivation |
| C57-C58 | cli.go with a file system | decision logic |
| C59, C66 | formats.go | decision logic on byte lists against grammars in `Spec/Formats.lean` |
| C60 | schema manager resource store | uniqueness theorem and counterexample |
| C61 | depth limit | counterexamples for members of objects and lists of types; items, alternatives and conditions are reported: error-counting relation through every `parse*` function, induction on the nesting |
| C63-C65 | merge.go: negations, conditionals, alternatives, dependent keywords, types | list lemmas, counterexamples |
| C67 | not.go and merge.go together, from the text to the generated value | invariant of the parser (`parseRec_clear`), C29 |
| C68 | panics of the parser | invariant of node shapes and states through the whole parser |
| C69 | termination of the parser | size measure that merging never increases, induction on depth and size; two runs shown endless for all fuel |
| C70 | references as members of allOf and anyOf, from the text to the generated value | C56 with the document held by the parser (`Spec/Combine.lean`); counterexample |
| C71 | two combinations that use one definition | counterexample |
| C73 | the error map as nested maps, against the log of recorded errors (`Spec/Report.lean`) | induction on the log; counterexample |
| C74 | cli.go: text on standard output | case analysis of a run |
| C75 | all generators, for a chosen random stream (`Spec/Reach.lean`) | induction on the allowed value, building the stream from the back; counterexamples at the limits |
| C76 | `Model/Not*.lean`, `Spec/Keep.lean` (the value keywords at every depth) | induction on the depth of the negation: the value satisfies the changed schema, hence the original one |
| C77 | `Model/Library.lean` (options and entry points), `Spec/Library.lean` (`limited`: a pattern with its repetitions limited) | the compiled pattern is the compiled limited pattern; C23 for the limited one |
| C78 | `Model/Library.lean` (calls that return the caller's options as they leave them) | induction on the sequence of calls; resolution of a reference from the initial state |
| C79 | `Model/Cli.lean`, `Model/Library.lean`, `Spec/Library.lean` (`AsksFor`: what the flags ask for) | the tool's parse equals the library's parse with the options of the flags; case analysis of the run |
| C80 | `Model/Doc.lean` (walk, table of identifiers, references), `Spec/Ids.lean` (`Identifies`: an inductive relation that carries the base down) | mutual structural induction over the walk: the recorded base of a place is the carried one; places of siblings do not interfere |
| C81 | parseReference, the current scope, referenceGenerator.Generate | case analysis of the run; the texts of the replacements; counterexamples by computation |
| C82 | the generators of a pattern (rxGenerate) | structural induction over the expression: for each match a list of draws that produces it; the exceptions by the range of the draw |
| C83 | `Model/Calls.lean` (a sequence of Generate calls that share the random sources) | a relational walk over all generators: a run from a used source is a run from a new one, up to the positions; induction on the sequence |
| C84 | `seedFromString` (Model/Rand.lean) | the seed as a weighted sum, exact below 2^63; counterexample |
| C85 | all generators under two option records (`Spec/Limits.lean`) | a relational walk over all generators: a quiet run within the steps is a run of the other |
| C86 | the merge of schema nodes against `Valid` (`Spec/Valid.lean`), in both directions | induction on the recursion of the merge, keyword by keyword |
| C87 | number parsing and drawing, the whole run (C75) | C75 gives each of the 2^53 steps between the bounds; error analysis of the three roundings of binary64 shows that one of them is near |
| C88 | number parsing (C20, C21), any lawful arithmetic for integers, exact arithmetic for numbers | the two values bound the effective limits from both sides; where a bound is missing the default leaves room; the count of multiples is the difference of two floors |

C41: the code's own limit of 10000 iterations is part of the model.

## What the code does differently from the claims

Found while proving; each is exhibited by a `_violation` theorem.

* Objects: `maxProperties: 0` is ignored; closed objects can be too small (C12); filler names collide with declared
  names (C13); `min_filler` keys in closed objects with patternProperties (C10).
* Arrays: `maxItems: 0` ignored; uniqueness does not look at tuple items; `maxContains` is not enforced and `contains` is
  skipped with `items: false` (C56).
* Strings and numbers: `maxLength: 0` ignored; exclusive bounds lost in double arithmetic, exactly those beyond 128; multiples above
  1475739 come out with a fraction, and 32.2 as a multiple of 0.1 as 32.20000000000001 (snapping to 1e-14, C21); satisfiable integer schemas
  rejected (C22), even with two values between fractional exclusive bounds (C88).
* Types: an unsatisfiable member of a type list yields null; a misspelt type is silently null; an empty type list panics
  in Generate.
* Regular expressions: the any-character class can emit a string that does not match; classes of just NUL panic.
* Conditionals: with several `if`s only the last one is guaranteed.
* Merging: `enum` and `const` on one schema lose the `const`; `items: false` dropped; dependent keywords dropped; types
  overwritten; `anyOf`s of different schemas concatenated; a common multiple beyond six decimals is wrong.
* Negation: large bounds act as infinity; exclusive gaps; an existing enum is not filtered by negated multipleOf; a
  required and negated name is silent.
* References: keyword-final pointers, array indices, absent keywords and escapes; `|` in document names; siblings of
  `$ref` ignored; `const` contents rewritten; a newline panics.
* Fetching: redirects leave the allowed hosts; `#` in a file name is checked before it is cut; the allowed-paths check is
  inverted (C51).
* Parsing: silent truncation at the depth limit, of members of objects and of arrays in a list of types (C61); validators of positions with the same name are shared (C60), and a choice is then checked against the wrong alternatives (C56);
  panics (C68); endless parses (C69).
* CLI: flags are ignored with a schema on standard input; a created file can be lost to a race; a partial file stays;
  `-verbose` writes to the stream that carries the value (C74).
* Completeness: no array of exactly `maxItems` items, no object of exactly `maxProperties` properties, no outermost multiple
  and no integer just above a fractional exclusive bound is ever drawn (C75).
* Patterns: with the restriction to ASCII `.` never yields a lower case letter and `(?s).` no tilde; classes of more than
  100000 characters yield only 93 of them; classes that begin with NUL never yield it (C82).
* A `not` that mentions a property or a tuple position makes it a declared one: a closed object or tuple then contains it
  (C76).  `enum` beside a `not` with `multipleOf` loses its bounds (C76).
* Errors recorded at one (document, path) overwrite each other (C73).
* Local references inside `allOf` cannot be resolved when RelativeTo is unset, with or without an `$id` (C70). This holds for every schema without identifiers and every working directory (`C70_default_base_always_violation`).
* Different seed texts may select the same sequence ("ac" and "cb", C84). math/rand reduces the seed further (modulo 2^31-1); that is outside the model, which takes the seed itself.
* Identifiers: relative references ignore the enclosing `$id`, and silently stand for the whole schema; without
  `RelativeTo` references by `$id` are unresolvable; slashes in names; `$id` in constants (C80).
* A local reference parsed after a nested combination of another document is looked up in that document
  (`SetDocumentBeingResolved` is not reset); dangling references are not reported; nested `$defs` cannot be referred to;
  without fetchers the name of another document is ignored (C81).
* Options: `RegexPatternPropertyOptions` is overwritten by `RegexStringOptions` (C77); `ParseSchemaFile` stores the path of
  the file in the caller's options (C78).

## Wrong programs

`seeded/make_mutations.py` holds the edits of the model (`mutations.json`), each with the claim it breaks;
`tools/mutate.py` applies one at a time to a scratch copy, rebuilds what depends on it and records which theorems fail in
`seeded/LOG.jsonl`.  Edits after which everything still proved led to stronger theorems (`tightened`) or are recorded as
equivalent programs.

## Appendix: theorems and axioms

P = propext, C = Classical.choice, Q = Quot.sound.  Names are in the namespace `Chaff`.

| id | property | status | theorems (axioms) |
|----|----------|--------|-------------------|
| C01 | Generation always terminates | proved | C01_generate_terminates (PCQ), C01_generate_terminates_table (PCQ) |
| C02 | Generation never panics on a well-formed generator | proved | C02_generate_no_panic (PCQ), C02_root_no_panic (PCQ), C02_number_safe (PCQ), C02_empty_types_violation (PCQ), C02_multipleOf_overflow_violation (PCQ), C02_parsed_schema_no_panic (PCQ), C02_parsed_schema_with_multiples_no_panic (PCQ), C02_empty_type_list_violation (PCQ) |
| C03 | Reference stack is balanced and bounded | proved | C03_reference_stack_balanced (PCQ), C03_reference_stack_bounded (PCQ) |
| C04 | Cyclic references are cut unless bypassed | proved | C04_no_reference_reentered (PCQ), C04_cyclic_reference_cut (PCQ) |
| C05 | Complexity counter only grows and the cutoff is final | proved | C05_complexity_monotone (PCQ), C05_cutoff_immediate (PCQ) |
| C06 | Retry budget stays within range and shrinks with complexity | proved | C06_budget_range (PCQ), C06_budget_full (PCQ), C06_budget_cutoff (PCQ), C06_budget_antitone (PCQ) |
| C07 | Option defaults fill exactly the unset fields | proved | C07_defaults (PQ), C07_defaults_idempotent (P), C07_suppressFallback_stuck (P) |
| C08 | Bounded draw is in range and hits every value | proved | C08_randomInt_range (PQ), C08_randomInt_onto (PQ), C08_randomInt_self (P), C08_randomInt_panic (PQ) |
| C09 | Required properties are always present | proved | C09_required_present (PCQ), C09_object_keys_distinct (PCQ), C09_schema_required (PCQ) |
| C10 | additionalProperties:false admits only declared names | proved | C10_additionalProperties_false (PCQ), C10_patternProperties_violation (PCQ), C10_schema_closed (PCQ) |
| C11 | maxProperties is respected | proved | C11_maxProperties (PCQ), C11_default_minimum_violation (PCQ), C11_zero_violation (PCQ), C11_schema_maxProperties (PCQ) |
| C12 | minProperties is respected | partial | C12_minProperties (PCQ), C12_minProperties_closed_partial (PCQ), C12_closed_object_violation (PCQ), C12_schema_minProperties (PCQ) |
| C13 | Declared properties carry values of their own schema | proved | C13_declared_values (PCQ), C13_collision_violation (PCQ), C13_schema_entries (PCQ) |
| C14 | minItems is respected | proved | C14_minItems (PCQ), C14_schema_minItems (PCQ), C14_additionalItems_violation (PCQ) |
| C15 | maxItems is respected | proved | C15_maxItems (PCQ), C15_zero_violation (PCQ), C15_schema_maxItems (PCQ), C15_additionalItems_violation (PCQ) |
| C16 | Tuple positions come from their own schemas | proved | C16_tuple_positions (PCQ), C16_closed_tuple (PCQ), C16_schema_positions (PCQ), C16_schema_closed (PCQ), C16_additionalItems_violation (PCQ) |
| C17 | contains contributes at least minContains items | proved | C17_contains (PCQ), C17_schema_contains (PCQ) |
| C18 | uniqueItems produces distinct items or says it could not | proved | C18_uniqueItems (PCQ), C18_tuple_violation (PCQ), C18_schema_uniqueItems (PCQ) |
| C19 | Enum and const outputs are declared values | proved | C19_enum (PCQ), C19_const (PCQ), C19_unsatisfiable_reported (PCQ) |
| C20 | Integers respect all their bounds | proved | C20_integers (PCQ) |
| C21 | Numbers respect all their bounds | partial | C21_numbers_exact (PCQ), C21_numbers_double_partial (PCQ), C21_exclusive_violation (PCQ), C21_exclusive_multiple_violation (PCQ), C21_exclusive_minimum_iff (PCQ), C21_multiples_double_partial (PCQ), C21_snapped_multiple_violation (PCQ), C21_decimal_multiple_violation (PCQ), C21_quarters_double_partial (PCQ) |
| C22 | Contradictory numeric schemas are rejected | proved | C22_contradictory_number_rejected (PCQ), C22_contradictory_integer_rejected (PCQ), C22_satisfiable_rejected_violation (PCQ), C22_empty_interval_rejected_iff (PCQ) |
| C23 | String lengths respect minLength and maxLength | proved | C23_string_lengths (PCQ), C23_zero_violation (PCQ) |
| C24 | Values have the declared type | partial | C24_single_type (PCQ), C24_type_list_partial (PCQ), C24_type_list_violation (PCQ) |
| C25 | Generated pattern strings match the pattern | proved | C25_generated_matches (PCQ), C25_pattern_text (PCQ), C25_dot_class_violation (PCQ) |
| C26 | Regex generation panics only in the named cases | proved | C26_build_no_panic (PCQ), C26_run_no_panic (PCQ), C26_pattern_no_panic (PCQ), C26_nul_class_violation (P), C26_dot_violation (P) |
| C27 | The xorshift source never degenerates | proved | C27_state_nonzero (PQ), C27_int63_range (PCQ), C27_streams_distinct (PQ), C27_returns_to_seed (PCQ) |
| C28 | oneOf results satisfy exactly one alternative | proved | C28_oneOf_exactly_one (PCQ), C28_every_alternative_checked (PCQ) |
| C29 | not constraints hold on the output | proved | C29_not_constraints (PCQ) |
| C30 | if/then/else picks the branch of the final value | partial | C30_if_then_else (PCQ), C30_several_conditionals_partial (PCQ), C30_two_conditionals_violation (PCQ), C30_conditional_applied (PCQ) |
| C31 | Constraint retries are bounded | proved | C31_retries_bounded (PCQ), C31_conditional_retries_bounded (PCQ) |
| C32 | Seeded generation is reproducible where promised | proved | C32_seed_reproducible (PCQ), C32_object_violation (PCQ) |
| C33 | Merging allOf bounds is intersection | proved | C33_length_bounds (PCQ), C33_item_bounds (PCQ), C33_contains_bounds (PCQ), C33_property_bounds (PCQ), C33_number_bounds (PCQ), C33_flat (PQ) |
| C34 | Merging keeps every required name and every property | proved | C34_required_names (PCQ), C34_declared_names (PCQ) |
| C35 | Merging enums and consts intersects them | proved | C35_allowed_values (PCQ), C35_disjoint_reported (PCQ), C35_enum_and_const_violation (PCQ) |
| C36 | false subschemas survive merging | proved | C36_additional_properties_false (PCQ), C36_additional_items_false (PCQ), C36_unevaluated_items_false (PCQ), C36_items_false_violation (PCQ) |
| C37 | Merged multipleOf is a common multiple | proved | C37_common_multiple (PCQ), C37_integers (PCQ), C37_seven_decimals_violation (PCQ) |
| C38 | Negated integer ranges are excluded | proved | C38_range_excluded (PCQ), C38_range_unchanged (P), C38_not_applied (PCQ), C38_large_bound_violation (PQ), C38_spurious_conflict (PCQ) |
| C39 | Negated numeric ranges are excluded | partial | C39_range_excluded_partial (PCQ), C39_integers_excluded (PCQ), C39_numbers_excluded_partial (PCQ), C39_absorbed_step_violation (PCQ), C39_exclusive_gap_violation (PCQ), C39_not_applied (PCQ) |
| C40 | Negated types are removed | proved | C40_negated_types_removed (PCQ), C40_nothing_left_reported (PCQ) |
| C41 | Negated multipleOf enumeration is sound and bounded | proved | C41_enumeration_sound (PCQ), C41_enumeration_in_range (PCQ), C41_enumeration_empty (PCQ), C41_not_applied (PCQ), C41_not_integer (PCQ), C41_enum_violation (PCQ) |
| C42 | Negated enum values never come back | proved | C42_enum_left (PCQ), C42_negated_values_checked (PCQ) |
| C43 | Reference text splits losslessly | proved | C43_reference_text (PCQ), C43_newline_reference_panics (PCQ) |
| C44 | Distinct references have distinct cycle-check keys | proved | C44_cycle_keys (PCQ), C44_has_resolved (PCQ), C44_current_scope (PCQ), C44_push_pop (P), C44_bar_violation (P) |
| C45 | JSON pointers into properties and definitions resolve to the named schema | proved | C45_pointer_resolves (PCQ), C45_missing_name_reported (PCQ), C45_keyword_end_violation (PCQ), C45_array_index_violation (PCQ), C45_absent_keyword_violation (PCQ), C45_escape_violation (PCQ), C45_array_index_never_resolves (PQ) |
| C46 | Scope tracking is balanced while parsing | proved | C46_scope_balanced (PCQ), C46_merge_balanced (PCQ), C46_parse_balanced (PCQ) |
| C47 | Parse depth is bounded | proved | C47_depth_bounded (PCQ), C47_root_bounded (PCQ), C47_too_deep (PCQ) |
| C48 | Recorded errors are never lost | proved | C48_errors_kept (PCQ), C48_merge_errors_kept (PCQ), C48_documents_errors_kept (PCQ), C48_errors_located (PCQ), C48_reported_is_recorded (PCQ) |
| C49 | Only authorised documents are fetched | proved | C49_http_authorised (PCQ), C49_http_direct (PCQ), C49_http_disabled (PCQ), C49_file_disabled (PCQ), C49_none_enabled (PCQ), C49_redirect_violation (PCQ) |
| C50 | Files outside the working directory are refused | proved | C50_files_inside_cwd (PCQ), C50_hash_violation (PCQ), C50_refuses_dots_in_names (PCQ) |
| C51 | Allowed paths restrict file access | partial | C51_check_is_inverted (PCQ), C51_only_files_not_in_allowed (PCQ), C51_empty_refuses_all (PCQ), C51_allowed_paths_violation (PCQ) |
| C52 | Each referenced document is parsed at most once | proved | C52_parsed_once (PCQ), C52_loop_stops (PCQ) |
| C53 | Schema text round-trips | proved | C53_roundtrip (PCQ), C53_items_list_violation (PQ), C53_true_violation (PQ) |
| C54 | Rewriting references changes only references | proved | C54_only_references_change (PCQ), C54_references_made_absolute (PCQ), C54_no_references_unchanged (PCQ), C54_validator_text (PCQ), C54_validator_text_same (PCQ), C54_const_altered_violation (PCQ), C54_property_called_ref_violation (PCQ), C54_external_reference_dropped_violation (PCQ) |
| C55 | Keyword dispatch is total and ordered | proved | C55_exactly_one_reading (PCQ), C55_dispatch (PCQ), C55_reference_siblings_ignored (PCQ), C55_unsupported_reported (PCQ), C55_inferred_type_generated (PCQ), C55_unknown_type_violation (PCQ), C55_empty_enum_violation (PCQ) |
| C56 | Generated values validate against the schema | partial | C56_generated_values_are_valid_partial (PCQ), C56_max_items_zero_violation (PCQ), C56_required_undeclared_violation (PCQ), C56_ref_sibling_violation (PCQ), C56_unique_tuple_violation (PCQ), C56_allOf_closed_violation (PCQ), C56_allOf_types_violation (PCQ), C56_allOf_tuple_violation (PCQ), C56_same_names_violation (PCQ), C56_contains_closed_violation (PCQ), C56_max_contains_violation (PCQ), C56_pattern_on_declared_violation (PCQ), C56_overlapping_patterns_violation (PCQ) |
| C57 | The CLI enables fetchers only on request | proved | C57_no_flags_no_access (PCQ), C57_stdin_no_access (PCQ), C57_http_needs_flag (PCQ), C57_file_needs_flag (PCQ), C57_outside_cwd_alone (PCQ), C57_allow_insecure_alone (PCQ), C57_space_in_list (PCQ), C57_stdin_ignores_flags (PCQ) |
| C58 | The CLI never overwrites an existing file | proved | C58_existing_untouched (PCQ), C58_no_file_changes (PCQ), C58_success_writes_result (PCQ), C58_race_violation (PCQ), C58_truncated_file_stays (PCQ) |
| C59 | Generated durations satisfy the duration format | proved | C59_checkers_never_panic (PCQ), C59_duration_accepted (PCQ), C59_pointer_violation (PCQ) |
| C60 | Validators belong to their own schema position | partial | C60_names_collide (PCQ), C60_own_schema_partial (PCQ), C60_first_schema_wins_violation (PCQ), C60_texts_permanent (PCQ), C60_collision_violation (PCQ) |
| C61 | Truncation at the depth limit is reported | partial | C61_silent_truncation_violation (PCQ), C61_node_reported_partial (PCQ), C61_reported_partial (PCQ), C61_type_list_violation (PCQ) |
| C62 | Negated required names, patterns and formats are enforced | proved | C62_negated_names_and_patterns_enforced (PCQ), C62_contradiction_silent_violation (PCQ) |
| C63 | Merging loses no negation, conditional or alternative | proved | C63_negations_kept (PCQ), C63_conditionals_kept (PCQ), C63_anyOf_branches_kept (PCQ), C63_oneOf_branches_kept (PCQ), C63_anyOf_concatenated_violation (PCQ) |
| C64 | Merging keeps dependent keywords | partial | C64_dependent_keywords_dropped_violation (PCQ) |
| C65 | Merging types intersects them | partial | C65_same_type_kept_partial (PCQ), C65_type_violation (PCQ), C65_last_type_wins (PCQ), C65_intersection_iff_last_strictest (PCQ) |
| C66 | Format checkers decide their format exactly | partial | C66_uuid_exact (PQ), C66_json_pointer_exact (PCQ), C66_relative_pointer_exact (PCQ), C66_duration_exact (PCQ), C66_hostname_partial (PCQ), C66_hostname_complete (PCQ), C66_hostname_violation (PCQ), C66_ipv4_complete (PCQ), C66_ipv4_partial (PCQ), C66_ipv4_violation (PCQ), C66_time_offset_exact (PCQ), C66_time_utc_exact (PCQ), C66_time_violation (PCQ) |
| C67 | All negations of a schema are enforced together | proved | C67_negations_enforced_together (PCQ), C67_merging_keeps_exclusions (PCQ) |
| C68 | Parsing never panics | partial | C68_parsing_never_panics_partial (PCQ), C68_newline_in_definition_name_violation (PCQ), C68_negated_uniqueItems_violation (PCQ), C68_nul_class_violation (PCQ), C68_reference_through_missing_items_violation (PCQ), C68_reference_beyond_list_violation (PCQ) |
| C69 | Parsing ends | partial | C69_more_fuel_same_answer (PCQ), C69_recursive_double_negation_violation (PCQ), C69_allOf_at_depth_limit_violation (PCQ), C69_no_references_ends_partial (PCQ), C69_acyclic_references_end_partial (PCQ), C69_recursive_references_end_partial (PCQ) |
| C70 | A reference in a combination stands for the schema it denotes | partial | C70_default_base_always_violation (PCQ), C70_member_references_hold_partial (PCQ), C70_default_base_violation (PCQ), C70_identifier_violation (PCQ) |
| C71 | A definition may be used in any number of combinations | partial | C71_shared_definition_violation (PCQ) |
| C72 | Further items come from items, then additionalItems, then unevaluatedItems | proved | C72_further_items (PCQ), C72_items_array_violation (PCQ) |
| C73 | The error report is what was recorded | proved | C73_newest_kept (PQ), C73_hasErrors (P), C73_reported_was_recorded (PQ), C73_recorded_is_reported (PQ), C73_newest_is_reported (PQ), C73_single_document (PCQ), C73_overwritten_violation (PCQ) |
| C74 | The command line tool prints the generated value and nothing else | proved | C74_prints_the_value (PCQ), C74_otherwise_silent (PCQ), C74_verbose_names_errors (PCQ), C74_verbose_violation (PCQ) |
| C75 | Every value a schema allows can be drawn | partial | C75_attainable_values_are_generated_partial (PCQ), C75_max_items_violation (PCQ), C75_max_properties_violation (PCQ), C75_multiple_violation (PCQ), C75_exclusive_bound_violation (PCQ) |
| C76 | A negation keeps the other keywords of its schema | partial | C76_negation_keeps_keywords_partial (PCQ), C76_combinations_kept (PCQ), C76_closed_object_violation (PCQ), C76_closed_tuple_violation (PCQ), C76_listed_bound_violation (PCQ) |
| C77 | The parser options mean what they say | partial | C77_string_repetitions (PCQ), C77_name_repetitions_partial (PCQ), C77_parse_depth (PCQ), C77_defaults (PCQ), C77_name_options_violation (PCQ) |
| C78 | One options record serves several calls | partial | C78_base_given (PCQ), C78_up_to_first_file (PCQ), C78_after_file_partial (PCQ), C78_reused_options_violation (PCQ), C78_references_beside_file (PCQ) |
| C79 | The command line tool is the library with the options of its flags | proved | C79_tool_is_library (PCQ), C79_rejections (PCQ) |
| C80 | A schema with an $id can be referred to by it | partial | C80_identifiers_known (PCQ), C80_fetched_identifiers_known (PCQ), C80_reference_to_identifier (PCQ), C80_same_as_pointer_partial (PCQ), C80_relative_reference_violation (PCQ), C80_slash_violation (PCQ), C80_constant_violation (PCQ), C80_default_base_violation (PCQ) |
| C81 | A reference leads to the place it names, or is reported | partial | C81_into_allOf_refused (PCQ), C81_local_reference_partial (PCQ), C81_following (PCQ), C81_other_document_violation (PCQ), C81_dangling_violation (PCQ), C81_nested_definition_violation (PCQ), C81_other_name_violation (PCQ) |
| C82 | Every text that matches a pattern can be generated | partial | C82_every_match_can_be_drawn_partial (PCQ), C82_dot_violation (PCQ), C82_any_violation (PQ), C82_large_class_violation (PQ), C82_nul_violation (PQ) |
| C83 | A parsed schema and an options record serve several calls | proved | C83_calls_start_afresh (PCQ), C83_source_continues (PCQ), C83_all_calls_made (PCQ), C83_every_value_valid (PCQ), C83_same_seed_same_values (PCQ) |
| C84 | A seed text selects its own sequence | partial | C84_seed_of_text (P), C84_one_character_partial (PCQ), C84_continuation_partial (PCQ), C84_collision_violation (PCQ) |
| C85 | A limit that is not reached does not matter | proved | C85_unreached_limits_do_not_matter (PCQ) |
| C86 | Taking schemas together is conjunction | proved | C86_merging_is_conjunction (PCQ) |
| C87 | Numbers come from everywhere between the bounds | proved | C87_no_gap_between_bounds (PCQ), C87_maximum_missed_violation (PCQ) |
| C88 | Numeric schemas with room are accepted | proved | C88_two_integers_suffice (PCQ), C88_fractional_exclusive_violation (PCQ), C88_room_suffices (PCQ) |
