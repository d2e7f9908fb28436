{"id": "C01", "title": "Generation always terminates", "statement": "Generate returns after finitely many steps for every compiled schema, including schemas whose $refs form cycles and including runs with BypassCyclicReferenceCheck enabled; the recursion depth is bounded by the generator tree heights and MaximumReferenceDepth alone, so how many steps are allowed never changes the value returned.", "quantifier": "every generator tree, every table of referenced generators (cyclic or not), every option record, every random stream, every starting state", "why_tests_cant": "a test runs one schema under one seed; a loop that only appears for one reference cycle or one random path is never sampled", "anchors": ["reference.go: referenceGenerator.Generate", "array.go: arrayGenerator.Generate", "object.go: objectGenerator.Generate", "combination.go: constrainedGenerator.Generate", "generator.go: GeneratorOptions"]}
{"id": "C02", "title": "Generation never panics on a well-formed generator", "statement": "With non-negative default-size options, Generate never panics: no index is out of range and no random draw is asked for an empty range. The claim fails for two schemas the parser accepts (an empty type list and a multipleOf count that overflows int), which are exhibited.", "quantifier": "every generator produced by the parser, every option record with non-negative sizes, every random stream", "why_tests_cant": "panics depend on the drawn numbers and on rare size combinations that example-based tests do not enumerate", "anchors": ["rand/random.go: RandomInt, Choice, StringChoiceMultiple", "multiple_type.go: multipleTypeGenerator.Generate", "number.go: generateMultipleOf", "array.go", "object.go"]}
{"id": "C03", "title": "Reference stack is balanced and bounded", "statement": "Whatever Generate does, the stack of references being resolved is the same after the call as before it, and no nested call ever sees more than MaximumReferenceDepth+1 references on it.", "quantifier": "every generator tree, reference table, option record, random stream and initial stack", "why_tests_cant": "an unbalanced pop shows only on particular nested paths and is invisible in the produced JSON", "anchors": ["reference.go: referenceGenerator.Generate", "reference_hander.go: referenceResolver"]}
{"id": "C04", "title": "Cyclic references are cut unless bypassed", "statement": "When BypassCyclicReferenceCheck is off, no reference is ever entered while it is already being resolved; instead the generated value at that point is the diagnostic string naming the cycle.", "quantifier": "every generator tree, reference table, random stream", "why_tests_cant": "each cycle shape (self, mutual, through arrays, through oneOf) is a different path; tests cover a handful", "anchors": ["reference.go: referenceGenerator.Generate", "reference_hander.go: HasResolved"]}
{"id": "C05", "title": "Complexity counter only grows and the cutoff is final", "statement": "The number of generation steps used never decreases during Generate, and once it exceeds a positive CutoffGenerationSteps every object, array, reference and combination generates null immediately, drawing no random number.", "quantifier": "every generator tree, option record, random stream and starting counter", "why_tests_cant": "the cutoff triggers at one step of one long run; tests cannot place it at every step", "anchors": ["generator.go: ShouldCutoff", "object.go", "array.go", "reference.go", "combination.go"]}
{"id": "C06", "title": "Retry budget stays within range and shrinks with complexity", "statement": "ScaledRetryBudget returns at least 1 and at most max(1, base); it is the base until MaximumGenerationSteps is reached, 1 from the cutoff on, and never increases as complexity grows.", "quantifier": "every option record, every complexity value and every base", "why_tests_cant": "an off-by-one at the threshold or a rounding bug shows at isolated counter values", "anchors": ["generator.go: ScaledRetryBudget, ShouldCutoff, ShouldMinimize"]}
{"id": "C07", "title": "Option defaults fill exactly the unset fields", "statement": "withGeneratorOptionsDefaults keeps every non-zero numeric option and replaces every zero one by its documented default, and applying it twice changes nothing. SuppressFallbackValues cannot be switched off: it is true afterwards whatever the caller passed.", "quantifier": "every option record", "why_tests_cant": "only a proof over all records shows that no field is cross-wired to another field's default", "anchors": ["generator.go: withGeneratorOptionsDefaults", "internal/util/util.go: GetInt, GetBool"]}
{"id": "C08", "title": "Bounded draw is in range and hits every value", "statement": "RandomInt(min,max) with min<max returns a value v with min <= v < max, every such v is returned by some random stream, RandomInt(m,m)=m, and it panics exactly when max<min.", "quantifier": "every pair of integers and every random stream", "why_tests_cant": "range errors at the ends show with probability 1/n", "anchors": ["rand/random.go: RandomInt"]}
{"id": "C09", "title": "Required properties are always present", "statement": "Every object generated from a schema before the cutoff contains every name listed in required, whatever the options, the other keywords and the random choices.", "quantifier": "every accepted object schema (any property, pattern and additional schemas), every object generator, option record, random stream", "why_tests_cant": "presence must survive every later overwrite and every random branch", "anchors": ["object.go: parseObject, objectGenerator.Generate"]}
{"id": "C10", "title": "additionalProperties:false admits only declared names", "statement": "With additionalProperties false and no patternProperties, every key of the generated object is declared in properties or listed in required. With patternProperties the claim is false: min_filler keys appear.", "quantifier": "every accepted object schema (any property, pattern and additional schemas), every object generator, option record, random stream", "why_tests_cant": "the offending key appears only under particular size targets and random draws", "anchors": ["object.go: parseObject, objectGenerator.Generate"]}
{"id": "C11", "title": "maxProperties is respected", "statement": "A generated object never has more properties than a positive maxProperties, provided the configured default minimum does not exceed it. maxProperties 0 is ignored by the code.", "quantifier": "every accepted object schema (any property, pattern and additional schemas), every object generator, option record, random stream", "why_tests_cant": "the maximum is only reached for extreme draws and key overlaps", "anchors": ["object.go: objectGenerator.Generate, parseObject"]}
{"id": "C12", "title": "minProperties is respected", "statement": "A generated object has at least minProperties properties unless additionalProperties is false without patternProperties (where the code can return too few) or filler names collide with existing names.", "quantifier": "every accepted object schema (any property, pattern and additional schemas), every object generator, option record, random stream", "why_tests_cant": "shortfall depends on which optional keys coincide with required ones", "anchors": ["object.go: parseObject, objectGenerator.Generate"]}
{"id": "C13", "title": "Declared properties carry values of their own schema", "statement": "Every value stored under a declared property name is a value for that property's schema, provided no generated filler name equals a declared name and no pattern generates it; a name generated from a pattern carries a value for the schema of that pattern, and a further property a value for additionalProperties. Null stands in for a sub-schema the parser refuses.", "quantifier": "every accepted object schema (any property, pattern and additional schemas), every object generator, option record, random stream", "why_tests_cant": "cross-wiring or overwriting shows for particular names and draws only", "anchors": ["object.go: parseObject, parseProperties, parsePatternProperties, parseAdditionalProperties, objectGenerator.Generate"]}
{"id": "C14", "title": "minItems is respected", "statement": "An array generated before the cutoff has at least minItems items, unless items or additionalItems is false, even when unique values run out. With additionalItems false minItems is ignored; this is exhibited.", "quantifier": "every accepted array schema, every array generator, option record, random stream", "why_tests_cant": "the uniqueness give-up path triggers only after many identical draws", "anchors": ["array.go: parseArray, arrayGenerator.Generate"]}
{"id": "C15", "title": "maxItems is respected", "statement": "An array generated from a schema accepted by the parser has at most maxItems items when maxItems is positive, the tuple is given by prefixItems and additionalItems is not false. For maxItems 0, for tuples given by the legacy items array and with additionalItems false the claim is false.", "quantifier": "every accepted array schema, every array generator, option record, random stream", "why_tests_cant": "needs the maximal draw on every one of tuple, contains and items", "anchors": ["array.go: parseArray, arrayGenerator.Generate", "assert.go: assertLowerUpperBound"]}
{"id": "C16", "title": "Tuple positions come from their own schemas", "statement": "Item i of a generated array is a value for the i-th schema of prefixItems (or of the legacy items array) for every i below the tuple length, and with items:false the array is exactly the tuple. For the legacy items array additionalItems:false does not stop further items; this is exhibited.", "quantifier": "every accepted array schema, every array generator, option record, random stream", "why_tests_cant": "index shifts show only for longer tuples mixed with contains/items", "anchors": ["array.go: parseArray, arrayGenerator.Generate", "array.go: parseTupleGenerator, parseTupleGeneratorFromSchemaNode"]}
{"id": "C17", "title": "contains contributes at least minContains items", "statement": "Right after the tuple come minContains items (one when it is absent) each of which is a value for the contains schema merged with the items schema, or is the uniqueness warning.", "quantifier": "every accepted array schema, every array generator, option record, random stream", "why_tests_cant": "loop-count errors are masked by extra items in most runs", "anchors": ["array.go: parseArray, arrayGenerator.Generate", "array.go: parseContainsGeneratorInScope"]}
{"id": "C18", "title": "uniqueItems produces distinct items or says it could not", "statement": "With uniqueItems every item after the tuple is different, as JSON, from all earlier items after the tuple or is the documented warning string. Full uniqueness is false: tuple items and repeated warnings can coincide.", "quantifier": "every accepted array schema, every array generator, option record, random stream", "why_tests_cant": "collisions are rare for rich item schemas", "anchors": ["array.go: generateConsideringUnique"]}
{"id": "C19", "title": "Enum and const outputs are declared values", "statement": "A schema with enum generates only listed values that also satisfy the rest of the schema, every such value is reachable, and const generates exactly the constant.", "quantifier": "every enum list, validator verdict and random stream", "why_tests_cant": "index errors show for particular list lengths and draws", "anchors": ["enum.go: parseEnum, enumGenerator.Generate", "const.go: parseConst", "rand/random.go: Choice"]}
{"id": "C20", "title": "Integers respect all their bounds", "statement": "An accepted integer schema generates only integers that satisfy minimum, maximum, exclusiveMinimum, exclusiveMaximum and multipleOf, for bounds within the exactly representable range; proved for any floating point rounding that is monotone and exact on small integers.", "quantifier": "every accepted combination of the five numeric keywords within 2^53, every random stream, every lawful rounding", "why_tests_cant": "boundary values are hit with negligible probability by random tests", "anchors": ["number.go: parseNumber, resolveMinMaxForNode, Generate, generateMultipleOf"]}
{"id": "C21", "title": "Numbers respect all their bounds", "statement": "An accepted number schema generates only values inside its bounds and, with multipleOf of at most 14 decimals, only multiples of it, in exact arithmetic; with real double rounding the exclusive bounds can be lost, which is exhibited.", "quantifier": "every accepted combination of numeric keywords, every random stream", "why_tests_cant": "boundary values are hit with negligible probability by random tests", "anchors": ["number.go", "internal/util/util.go: Round"]}
{"id": "C22", "title": "Contradictory numeric schemas are rejected", "statement": "If no number satisfies the numeric keywords the parser returns an error instead of a generator (exact arithmetic). The converse is false: satisfiable schemas such as integer minimum=maximum=5 are rejected as well.", "quantifier": "every combination of numeric keywords", "why_tests_cant": "tests can only list some contradictory combinations", "anchors": ["number.go: resolveMinMaxForNode, parseNumber"]}
{"id": "C23", "title": "String lengths respect minLength and maxLength", "statement": "A string generated without pattern or format has at least minLength and, when maxLength is positive, at most maxLength characters. maxLength 0 is ignored by the code.", "quantifier": "every accepted length pair, every sequence of random sentences", "why_tests_cant": "depends on the lengths of the random sentences", "anchors": ["string.go: parseString, stringGenerator.Generate"]}
{"id": "C24", "title": "Values have the declared type", "statement": "Whatever generator the parser builds for a single type, the generated value is of that JSON type (or null past the cutoff), and for a list of types it is of one of the listed types.", "quantifier": "every schema with a type keyword, option record, random stream", "why_tests_cant": "type drift appears on fallback and cutoff branches", "anchors": ["parse.go: parseType", "multiple_type.go", "number.go", "string.go", "array.go", "object.go", "null.go", "boolean.go"]}
{"id": "C25", "title": "Generated pattern strings match the pattern", "statement": "For every regular expression without assertions the string built by the regex generator is in its language; for assertions at the two ends it matches as a whole.", "quantifier": "every regular expression syntax tree, generator arguments and random stream", "why_tests_cant": "languages are infinite and alternation/repetition nests arbitrarily", "anchors": ["internal/regen/internal_generator.go", "internal/regen/char_class.go"]}
{"id": "C26", "title": "Regex generation panics only in the named cases", "statement": "Building and running the regex generator never panics for trees whose character classes contain a code point above zero in each range and whose repeat bounds are ordered; classes containing only NUL in a range do panic, which is exhibited.", "quantifier": "every regular expression syntax tree, generator arguments and random stream", "why_tests_cant": "the panic needs specific class ranges", "anchors": ["internal/regen/char_class.go: newCharClassRange, parseCharClass", "internal/regen/internal_generator.go"]}
{"id": "C27", "title": "The xorshift source never degenerates", "statement": "The regex random source never reaches the all-zero state and Int63 always returns a non-negative value, for every seed including zero.", "quantifier": "every 64-bit seed and every number of draws", "why_tests_cant": "2^64 states cannot be enumerated", "anchors": ["internal/regen/rng.go"]}
{"id": "C28", "title": "oneOf results satisfy exactly one alternative", "statement": "When a schema with several alternatives in oneOf is parsed without errors, every alternative gets a validator made from that alternative, and a value generated before the cutoff is accepted by exactly one of these validators, or is the documented failure string.", "quantifier": "every schema and list of alternatives, option record, random stream", "why_tests_cant": "overlapping alternatives collide only for special values", "anchors": ["combination.go: parseCombination, newOneOfConstraint", "combination.go: oneOfConstraint.Apply, constraintPassed", "combination.go: constrainedGenerator.Generate"]}
{"id": "C29", "title": "not constraints hold on the output", "statement": "A value generated under compiled not constraints (pattern, format, value, property name) before the cutoff satisfies all of them, or is the documented failure string.", "quantifier": "every base generator, constraint collection, option record, random stream", "why_tests_cant": "a violating value may be produced once in many draws", "anchors": ["constraint.go: constraintCollection.Compile, multiConstraint.Apply"]}
{"id": "C30", "title": "if/then/else picks the branch of the final value", "statement": "When a schema with a single conditional is parsed without errors, its condition is checked by a validator of the schema under if and its branches are made from then and else; the value returned, when generation did not give up, satisfies the condition and was produced for the then branch (or no then is given), or fails it and was produced for the else branch (or no else is given). For several conditionals the joint claim is false.", "quantifier": "every validator, branch generators, random stream, attempt budget", "why_tests_cant": "needs interleavings of regenerated values and conditions", "anchors": ["if.go: parseIf, parseIfBody, ifStatement.Compile", "if.go: AttemptToSatisfy, ifConstraint.Apply, multipleIfConstraint.Apply"]}
{"id": "C31", "title": "Constraint retries are bounded", "statement": "Applying a constraint regenerates the underlying value at most as many times as the scaled retry budget.", "quantifier": "every constraint, base generator, option record, random stream", "why_tests_cant": "worst cases need all attempts to fail", "anchors": ["combination.go: Apply", "constraint.go: Apply", "if.go: Apply"]}
{"id": "C32", "title": "Seeded generation is reproducible where promised", "statement": "For generators that contain no pattern, format, free string or object, the generated value depends only on the seed and options: two runs that differ in the global random state agree.", "quantifier": "every such generator tree, both random streams", "why_tests_cant": "one global-randomness leak in a rare branch is invisible to a two-run test", "anchors": ["rand/random.go", "generator.go: GenerateWithDefaults"]}
{"id": "C33", "title": "Merging allOf bounds is intersection", "statement": "A value satisfies the merged numeric, length, item-count and property-count bounds exactly when it satisfies those of every merged schema, in any order.", "quantifier": "every list of schemas without $ref among their parts (the schema and, recursively, the members of its allOf), and every value", "why_tests_cant": "all orders and nil/non-nil combinations multiply", "anchors": ["merge.go: mergeSchemaNodes", "internal/util/util.go: MaxIntPtr, MinIntPtr, MaxFloatPtr, MinFloatPtr"]}
{"id": "C34", "title": "Merging keeps every required name and every property", "statement": "The merged schema requires exactly the names required by some merged schema, and declares exactly the property names declared by some merged schema.", "quantifier": "every list of schemas without $ref among their parts (the schema and, recursively, the members of its allOf)", "why_tests_cant": "all overlaps of key sets multiply", "anchors": ["merge.go: mergeProperties, mergeSchemaSimpleProperties", "internal/util/util.go: MergeSlicePtrs"]}
{"id": "C35", "title": "Merging enums and consts intersects them", "statement": "When merging succeeds, a value is allowed by the merged enum/const exactly when it is allowed by all parts; the case of enum and const on the same schema loses the const, which is exhibited.", "quantifier": "every list of schemas without $ref among their parts and every JSON value", "why_tests_cant": "all value overlaps multiply", "anchors": ["merge.go: mergeEnumAndConst, collectEnumValues, intersectEnumSlices"]}
{"id": "C36", "title": "false subschemas survive merging", "statement": "A merge forbids additional properties, additional items or unevaluated items (false) exactly when some merged schema does. For items:false the claim is false: it is dropped.", "quantifier": "every list of schemas in every order without $ref among their parts (the schema and, recursively, the members of its allOf)", "why_tests_cant": "order-dependent loss shows for specific orders", "anchors": ["merge.go: mergeNodeOrFalse, mergeItemsData"]}
{"id": "C37", "title": "Merged multipleOf is a common multiple", "statement": "Every multiple of the merged multipleOf is a multiple of every merged multipleOf, for values with at most six decimals.", "quantifier": "every list of schemas without $ref whose multipleOf values are positive decimals; exact arithmetic for lists, any IEEE-like arithmetic for two integers", "why_tests_cant": "number-theoretic over all pairs", "anchors": ["internal/util/util.go: FindHcf, countDecimalPlaces", "merge.go"]}
{"id": "C38", "title": "Negated integer ranges are excluded", "statement": "When resolving a negated length/count range against a base range reports no conflict, every value in the resulting range is in the base range and outside the negated range.", "quantifier": "all four optional bounds and every value", "why_tests_cant": "the case split has many boundary combinations", "anchors": ["not.go: resolveBoundsInt"]}
{"id": "C39", "title": "Negated numeric ranges are excluded", "statement": "When resolving a negated numeric range (with exclusive bounds) against a base range reports no conflict, every value in the resulting range satisfies the base and violates the negated range.", "quantifier": "all eight optional bounds and every value", "why_tests_cant": "the case split has many boundary combinations", "anchors": ["not.go: resolveBoundsFloat64"]}
{"id": "C40", "title": "Negated types are removed", "statement": "After resolving negated types against a schema's types, no remaining type is a negated one (number also removing integer) and every remaining type was allowed.", "quantifier": "every type list and negated type list", "why_tests_cant": "all subsets of types multiply", "anchors": ["not.go: resolveType, notApplyType"]}
{"id": "C41", "title": "Negated multipleOf enumeration is sound and bounded", "statement": "The values enumerated to avoid a negated multipleOf are at most 200, lie within the bounds, are not multiples of the negated factor, and the enumeration always stops.", "quantifier": "every bound pair, factor and negated factor", "why_tests_cant": "loops over arbitrary floats", "anchors": ["not.go: computeValidMultipleOfValues"]}
{"id": "C42", "title": "Negated enum values never come back", "statement": "The enum left after applying negated enum/const contains no negated value and only original values, in their original order.", "quantifier": "every enum and negated list", "why_tests_cant": "all overlaps multiply", "anchors": ["not.go: notApplyEnum, notApplyConst"]}
{"id": "C43", "title": "Reference text splits losslessly", "statement": "Splitting a $ref gives a document part without '#' and a fragment that is empty or starts with '#', whose concatenation is the original text; it panics exactly when a newline follows the first '#'.", "quantifier": "every string", "why_tests_cant": "all strings", "anchors": ["document.go: documentRegex, ResolveDocumentIdAndPath", "internal/util/util.go: RegexMatchNamedCaptureGroups"]}
{"id": "C44", "title": "Distinct references have distinct cycle-check keys", "statement": "Two references are treated as the same by the cycle check exactly when their document and path are equal, provided document names contain no '|'; without that proviso the claim is false. The current scope read back is the one pushed.", "quantifier": "every pair of document/path strings", "why_tests_cant": "key collisions need adversarial names", "anchors": ["reference_hander.go: PushRefResolution, HasResolved, GetCurrentResolution"]}
{"id": "C45", "title": "JSON pointers into properties and definitions resolve to the named schema", "statement": "A pointer made of properties, patternProperties, $defs and definitions steps resolves, when merging, to the schema found by following those names, and to an error when a name is missing. For array indices and for pointers that end in a keyword the code is wrong, which is exhibited.", "quantifier": "every schema tree and pointer", "why_tests_cant": "trees and pointers are unbounded", "anchors": ["reference_path.go: resolveSubReferencePath, resolveReferenceProperty, resolveReferenceSlice"]}
{"id": "C46", "title": "Scope tracking is balanced while parsing", "statement": "After parsing any schema node the current path, the parse depth and the stack of resolved references are what they were before, on success and on every error path.", "quantifier": "every schema node, parser state, document set", "why_tests_cant": "each early return is a separate path", "anchors": ["reference_hander.go: ParseNodeInScope, PushToPath, PopFromPath", "parse.go: parseNode"]}
{"id": "C47", "title": "Parse depth is bounded", "statement": "No node is parsed at a nesting depth above MaxParseDepth: deeper nodes yield an error and a null generator.", "quantifier": "every schema node and parser state", "why_tests_cant": "requires arbitrarily deep nesting through arbitrary keywords", "anchors": ["parse.go: parseNode"]}
{"id": "C48", "title": "Recorded errors are never lost", "statement": "Once an error is recorded at a location, the error collection stays non-empty and keeps an error for that location for the rest of the parse.", "quantifier": "every sequence of parser actions", "why_tests_cant": "order of errors across a whole parse", "anchors": ["error.go"]}
{"id": "C49", "title": "Only authorised documents are fetched", "statement": "Every document fetched over HTTP during a parse has scheme https (unless insecure is allowed) and a host on the allow list when the list is non-empty; when a fetcher is disabled it performs no fetch; when none is enabled no document is ever fetched.", "quantifier": "every schema, set of documents, references and configuration", "why_tests_cant": "an adversarial schema chooses the references", "anchors": ["document.go: resolveDocumentRef, resolveDocument, ParseNextDocument", "fetchers.go: httpFetchDocumentResolver.resolveDocumentId"]}
{"id": "C50", "title": "Files outside the working directory are refused", "statement": "Unless AllowOutsideCwd is set, every file read by the file fetcher lies, after symlink resolution, inside the working directory.", "quantifier": "every reference text, base, working directory and symlink map", "why_tests_cant": "path traversal inputs are unbounded", "anchors": ["fetchers.go: fileSystemFetchDocumentResolver.resolveDocumentId, isOutsideOfCwd"]}
{"id": "C51", "title": "Allowed paths restrict file access", "statement": "With a list of allowed paths only files inside one of them are read. The code violates this: a single allowed path grants exactly the files that do not match it.", "quantifier": "every list of allowed paths and every file", "why_tests_cant": "tests used one directory layout that hides the inversion", "anchors": ["fetchers.go: isOutsideOfAllowedPaths"]}
{"id": "C52", "title": "Each referenced document is parsed at most once", "statement": "The loop over referenced documents parses each document at most once and therefore stops when finitely many documents are reachable.", "quantifier": "every set of documents and references", "why_tests_cant": "document graphs are unbounded and cyclic", "anchors": ["document.go: HandleDeferredReferenceResolution, ParseNextDocument, HasMoreDocumentsToParse", "parse.go: ParseSchema"]}
{"id": "C53", "title": "Schema text round-trips", "statement": "Encoding a schema and decoding the result gives back the same schema, for type, items, boolean-or-schema keywords, const (including const null) and all nested schemas.", "quantifier": "every well-formed schema tree", "why_tests_cant": "trees are unbounded and omitempty rules interact", "anchors": ["json.go", "document.go: RewriteReferencesRelativeToDocument", "schema.go: ParseSchemaNode"]}
{"id": "C54", "title": "Rewriting references changes only references", "statement": "Rewriting $ref strings relative to another document leaves every other part of the schema unchanged and is idempotent on schemas without references; a const or enum value containing a $ref key is altered too, which is exhibited.", "quantifier": "every JSON value", "why_tests_cant": "trees are unbounded", "anchors": ["document.go: RewriteReferencesRelativeToDocument", "schema.go: replaceRefs"]}
{"id": "C55", "title": "Keyword dispatch is total and ordered", "statement": "Every schema node is handled by exactly one parser chosen by the fixed keyword precedence $ref, allOf, oneOf/anyOf, not, if, enum, const, type list, type, inferred type, any type.", "quantifier": "every schema node", "why_tests_cant": "2^11 combinations of present keywords", "anchors": ["parse.go: parseSchemaNode, inferType"]}
{"id": "C56", "title": "Generated values validate against the schema", "statement": "For schemas built from type, properties, patternProperties, required, additionalProperties, items, prefixItems, contains, numeric bounds, string lengths and patterns, enum, const, local $refs, allOf, anyOf, oneOf, not, if, then and else, if parsing records no error and generation emits no diagnostic and is not cut off, the generated value is valid against the schema.", "quantifier": "every such schema of any size and nesting, option record and random stream", "why_tests_cant": "end-to-end correctness quantifies over all schemas and all seeds", "anchors": ["parse.go", "object.go", "array.go", "number.go", "string.go", "enum.go", "const.go", "reference.go", "all_of.go", "combination.go", "merge.go"]}
{"id": "C57", "title": "The CLI enables fetchers only on request", "statement": "Running the CLI without fetcher flags parses with both fetchers disabled; allow-insecure alone enables HTTP for every host.", "quantifier": "every combination of flags", "why_tests_cant": "flag combinations multiply", "anchors": ["cli/cli.go"]}
{"id": "C58", "title": "The CLI never overwrites an existing file", "statement": "If the output path exists (or its state cannot be determined) nothing is written.", "quantifier": "every file system state and output path", "why_tests_cant": "file system states are unbounded", "anchors": ["cli/cli.go: writeFile"]}
{"id": "C59", "title": "Generated durations satisfy the duration format", "statement": "Every string generated for format duration is accepted by the library's own duration checker, and format checkers never panic.", "quantifier": "every random stream / every string", "why_tests_cant": "all strings", "anchors": ["string.go: generateFormat", "internal/jsonschema/formats.go"]}
{"id": "C60", "title": "Validators belong to their own schema position", "statement": "The validator used to filter an enum or check a const is compiled from that very schema. The code violates this when two positions normalise to the same resource name.", "quantifier": "every pair of schema positions", "why_tests_cant": "needs colliding names", "anchors": ["schema.go: ParseSchemaNode, normalisePath"]}
{"id": "C61", "title": "Truncation at the depth limit is reported", "statement": "When a part of the schema is cut off because MaxParseDepth is exceeded, the parse reports it: as an error result or in the error collection. The code violates this for members of objects and for arrays in a list of types: the error is dropped and null is generated silently. Cut-off items of arrays and parts of allOf, anyOf, oneOf, then and else are reported.", "quantifier": "every schema and every depth limit", "why_tests_cant": "The loss depends on which keyword the limit happens to cut, so tests see it only at particular depths.", "anchors": ["parse.go: parseNode", "object.go: parseProperties, parsePatternProperties, parseAdditionalProperties"]}
{"id": "C62", "title": "Negated required names, patterns and formats are enforced", "statement": "When applying not reports no error, every name required by the negated schema (unless the schema itself requires it) is dropped from the declared properties and rejected if it appears in the generated object, and a negated pattern or format is rejected in the generated string. A name both required and negated is a silent contradiction, which is exhibited.", "quantifier": "every schema, negated schema and parser state", "why_tests_cant": "The set of names, patterns and nested negations is unbounded and the enforcement is split between removal at parse time and rejection at generation time.", "anchors": ["not.go: notApplyString, notApplyObject", "constraint.go: constraintCollection"]}
{"id": "C63", "title": "Merging loses no negation, conditional or alternative", "statement": "The merge of schemas has exactly the not schemas, the if/then/else conditionals, and the anyOf and oneOf branches of the merged schemas. (That the anyOf branches of different schemas end up in one list, which weakens them, is exhibited.)", "quantifier": "every list of schemas without $ref among their parts, however many nots and conditionals", "why_tests_cant": "the collected lists grow with the number of schemas and the order in which they are merged", "anchors": ["merge.go: mergeNot, mergeIf, mergeSchemaNodes"]}
{"id": "C64", "title": "Merging keeps dependent keywords", "statement": "A merge keeps dependentRequired and dependentSchemas. The code drops them in every merge; this is proved instead.", "quantifier": "every list of schemas without $ref among their parts", "why_tests_cant": "a loss in every merge shows only in schemas that combine the keywords", "anchors": ["merge.go: mergeSchemaNodes"]}
{"id": "C65", "title": "Merging types intersects them", "statement": "The merged type allows a type only if every merged schema allows it. The code keeps the last type, so this holds only when the types agree; the violation is exhibited.", "quantifier": "every list of schemas without $ref among their parts", "why_tests_cant": "order-dependent", "anchors": ["merge.go: mergeSchemaTypes"]}
{"id": "C66", "title": "Format checkers decide their format exactly", "statement": "Validating a string against format uuid, json-pointer, relative-json-pointer, duration, hostname, ipv4 or time answers true for exactly the strings the format's grammar describes.", "quantifier": "every string (of any length)", "why_tests_cant": "The set of strings is infinite; a table of examples cannot show that no other string is accepted or rejected.", "anchors": ["internal/jsonschema/formats.go: isUUID, isJSONPointer, isRelativeJSONPointer, isDuration, isHostname, isIPV4, isTime"]}
{"id": "C67", "title": "All negations of a schema are enforced together", "statement": "When a schema without references and alternatives parses without errors, every value generated from it before the cutoff respects every not in it - its own and those of the members of its allOf, at any nesting - at the same time: it is not a negated constant, a string does not match a negated pattern, the value does not have a negated format, an object has none of the names a negation requires (unless the schema itself requires them), and it is none of the negated enum values (if the schema lists no values itself); or it is the documented failure text.", "quantifier": "every well-formed schema of that kind with any number of negations, every environment, option record, random stream and fuel", "why_tests_cant": "the number and nesting of the negations is unbounded and a lost negation shows only when the random value happens to hit it", "anchors": ["not.go: parseNot, applyNotConstraints, flattenAndPartitionNotNodes", "constraint.go: constraintCollection.Merge, Compile", "all_of.go: parseAllOf", "merge.go: mergeNot"]}
{"id": "C68", "title": "Parsing never panics", "statement": "Parsing a schema never panics: it is rejected, or it returns a generator, possibly with recorded errors. The claim is false in general: a newline in the name of a definition, a negated uniqueItems, a reference through an absent items or beyond the end of a list, and a pattern with a class of just NUL make the parser panic; these are exhibited. It is proved for all schemas without these features, whatever their size, nesting, references between their parts and to other documents.", "quantifier": "every schema text, every set of fetchable documents, every option record and outside world", "why_tests_cant": "the inputs are unbounded and the panics come from rare combinations of keywords, references and merged schemas", "anchors": ["parse.go: ParseSchema, parseSchemaNode, parseNode", "merge.go: mergeSchemaNodes", "not.go: notMerge", "reference_path.go: resolveSubReferencePath", "document.go: ResolveDocument"]}
{"id": "C69", "title": "Parsing ends", "statement": "Parsing a schema always ends with an answer: a rejection, a generator with or without recorded errors, or a panic. The claim is false in general: a schema that negates itself an odd number of times is expanded for ever, and so is an allOf that refers to its own schema at the nesting limit; both are exhibited as runs without an answer for any amount of fuel. It is proved for schemas without references, with any keywords and nesting, and for schemas whose references name definitions of the same document none of which leads back to itself, and for recursive references that are not below allOf, anyOf, oneOf, not, if or contains.", "quantifier": "every schema text (of any size and nesting), every option value and every amount of fuel", "why_tests_cant": "A run that does not end cannot be observed by a test, and no finite set of schemas shows that all end.", "anchors": ["not.go: parseNot, flattenAndPartitionNotNodes", "merge.go: mergeSchemaNodes, flattenResidualAllOf, mergeResolveReference", "parse.go: ParseSchema, parseNode, parseSchemaNode"]}
{"id": "C70", "title": "A reference in a combination stands for the schema it denotes", "statement": "A reference to a definition of the same document that is used as a member of allOf or as an alternative of anyOf means the same as that definition written in its place: what is generated satisfies the definition. The claim is false with the default options: without a base location the parser does not find its own document, records an error and generates a value of another type; this is exhibited. It is proved when a base location is given and the definitions so used contain no references themselves.", "quantifier": "every schema text of the supported family, every random stream and every option record", "why_tests_cant": "The schemas, their nesting and the random choices are unbounded, and whether a reference is found depends on options that are independent of the schema.", "anchors": ["merge.go: mergeSchemaNodes, mergeResolveNodeRef, mergeResolveReference", "document.go: newDocumentResolver (root document id), ResolveDocumentIdAndPath", "all_of.go: parseAllOf", "combination.go: parseCombination"]}
{"id": "C71", "title": "A definition may be used in any number of combinations", "statement": "A definition that refers to nothing may be used as a member of several combinations, beside or below each other, and means the same at each of them. The claim is false: a definition used in an allOf and again in an allOf below it is taken for a circular reference, and the inner allOf is dropped without an error; this is exhibited. For combinations beside each other it follows from C70.", "quantifier": "every schema text, every random stream and every option record", "why_tests_cant": "Whether a use is dropped depends on which references are being followed at that point, so on every way of nesting uses.", "anchors": ["merge.go: mergeResolveNodeRef", "reference_hander.go: HasResolved, PushRefResolution, ParseNodeInScope"]}
{"id": "C72", "title": "Further items come from items, then additionalItems, then unevaluatedItems", "statement": "Every item of a generated array after the tuple and the contains items is a value for the items schema; if there is none, for the additionalItems schema; if there is none, for the unevaluatedItems schema; else it is a plain string when unique items are asked for and null otherwise; or it is the uniqueness warning. When items is an array of schemas the code uses an empty schema in place of additionalItems; this is exhibited.", "quantifier": "every accepted array schema, every array generator, option record, random stream", "why_tests_cant": "Which of the keywords wins depends on every combination of them, and the number of further items on the random choices.", "anchors": ["array.go: parseArray, parseItemGenerator, parseAdditionalItems, arrayGenerator.Generate", "json.go: itemsData.UnmarshalJSON"]}
{"id": "C73", "title": "The error report is what was recorded", "statement": "The errors that a parse reports to its caller are exactly those recorded while parsing: the report is empty only when nothing was recorded, names every (document, path) at which an error was recorded, and invents nothing. Where several errors were recorded at one place the newest is reported; the older ones are lost, which is exhibited by a schema with two merge conflicts in one place.", "quantifier": "every schema text, parser option record and sequence of recorded errors", "why_tests_cant": "The number of errors, documents and paths is unbounded, and so is the order in which they are recorded.", "anchors": ["error.go: ErrorMap, AddError, AddErrorWithSubpath, HasErrors, CollectErrors", "parse.go: ParseSchema"]}
{"id": "C74", "title": "The command line tool prints the generated value and nothing else", "statement": "A successful run of the command line tool without an output file and without -verbose prints exactly the JSON text of the value generated for the given schema. A run that fails, or that writes its result to a file, prints nothing on standard output. With -verbose every place with a recorded error is named; the same stream then also carries the value, so that the output is no JSON text, which is exhibited.", "quantifier": "every flag record, standard input, file system, network, operating system behaviour and random stream", "why_tests_cant": "The outcomes of parsing, generating, encoding and writing combine freely, and failures at each step come from outside.", "anchors": ["cli/cli.go: main, checkErr, writeFile", "error.go: CollectErrors"]}
{"id": "C75", "title": "Every value a schema allows can be drawn", "statement": "Generation is not only correct but complete on the plain part of the schema language: for a schema built from enum, const, null, boolean, integer ranges with or without multipleOf, sentences with or without lengths, patterns, formats, arrays, objects of declared members, lists of types, references to the document or its definitions, recursive ones included, and choices between such schemas with anyOf or oneOf, every value that the schema allows, and whose counts stay strictly below the upper limits in force, is produced for some outcome of the random numbers. The limits the code never reaches (an array of exactly maxItems items, an object of exactly maxProperties properties, the outermost multiples of a range, the integer just above a fractional exclusive bound) are exhibited.", "quantifier": "every schema in the described part of the language, every nesting, every allowed value, every platform and options record", "why_tests_cant": "A test draws finitely many values; that a value can never be drawn, or that each allowed value can, is a statement about all random streams.", "anchors": ["number.go: generateNumber", "array.go: Generate", "object.go: Generate", "enum.go", "multiple_type.go", "rand/random.go", "combination.go: parseCombination"]}
{"id": "C76", "title": "A negation keeps the other keywords of its schema", "statement": "Applying a not changes the schema it is written in, but only by adding restrictions: when no error is recorded, every value that the changed schema allows (and that has none of the names the negation forbids) is also allowed by the keywords written beside the not, at every depth: types, listed values, bounds, counts, patterns, tuple positions, items, contains, properties and additional properties. The keywords that combine schemas are handed on unchanged. Exceptions in the code are exhibited: a closed object or tuple gets the names or positions that only the negation mentions, and listed values beside a negated factor lose their bounds.", "quantifier": "every schema and negated schema, at any nesting, that meet the stated conditions, every value, every lawful floating point arithmetic", "why_tests_cant": "The change is computed keyword by keyword and recursively from two schemas; whether it loses one of the original restrictions depends on the pair and on every value.", "anchors": ["not.go", "object.go", "array.go"]}
{"id": "C77", "title": "The parser options mean what they say", "statement": "The regular expression options given to the parser bound the repetitions in everything generated from a pattern: an unlimited repetition is repeated at least the minimum and at most the maximum number of times that the options ask for, ten when no options are given and 4096 when the maximum is left open, and the text still matches the pattern. A schema nested deeper than the maximum parse depth (100 when it is left open) becomes a null generator. Leaving options out is the same as giving the documented default. The options for property names are overwritten by the options for strings, which is exhibited: whatever they are set to, nothing changes.", "quantifier": "every options record, schema, pattern and random stream", "why_tests_cant": "The limits hold for every pattern, with every nesting of repetitions, and for every draw; a test sees some draws of some patterns.", "anchors": ["parse.go: withDefaultParseOptions, parseNode", "string.go: newStringGeneratorFromPattern, newStringGeneratorArgs", "object.go: patternProperties"]}
{"id": "C78", "title": "One options record serves several calls", "statement": "A caller may use one options record for several parse calls. When RelativeTo is set, each call returns what it would return with a fresh copy of the record, whatever was parsed before, and the record is not changed. Otherwise this holds up to and including the first call that reads a file; that call stores the path of the file in the caller's record, so that later schemas are resolved relative to that file, which is exhibited with two files in different directories. A relative reference in a schema file stands for the file of that name in the directory of the schema file.", "quantifier": "every sequence of calls, options record, file system and schema", "why_tests_cant": "The claim ranges over histories of calls: the result of a call must not depend on the calls before it.", "anchors": ["parse.go: ParseSchemaFile, ParseSchema, ParseSchemaFileWithDefaults", "document.go: resolveDocumentRef", "fetchers.go: fileSystemDocumentFetcher.resolveDocumentId"]}
{"id": "C79", "title": "The command line tool is the library with the options of its flags", "statement": "A successful run of the command line tool prints the value that the library generates when it is called with the options that the flags ask for: web documents are fetched if and only if hosts are listed or insecure access is allowed, from exactly the listed hosts; files if and only if paths are listed or access outside of the working directory is allowed; each limit flag sets the generation limit of the same name; nothing else is set. What the library rejects, the tool rejects, with an exit code other than zero, no output and no file written. The flags for fetching have no effect on a schema from standard input.", "quantifier": "every flag record, standard input, file system, network, operating system behaviour and random stream", "why_tests_cant": "Each flag must reach its option for every combination of the other flags and for every schema.", "anchors": ["cli/cli.go: main, getHttpDocumentFetcherOptionsFromFlags, getFileSystemDocumentFetcherOptionsFromFlags", "parse.go: ParseSchemaFile"]}
{"id": "C80", "title": "A schema with an $id can be referred to by it", "statement": "A sub-schema that carries an $id can be referred to by that identifier from anywhere: the $id is resolved against the identifier of the nearest enclosing schema that has one (the root's own absolute $id, else the name the document is read by), and a $ref whose text resolves to the same URI, with a JSON pointer after it or not, leads to exactly that place of the document, as a local pointer to it does. The same holds for the identifiers of fetched documents, unless the identifier was known before. Exceptions in the code are exhibited: relative references are resolved against the document's name instead of the enclosing identifier (and then silently stand for the whole schema), without RelativeTo references by identifier are unresolvable, member names with a slash shift the base, and an $id inside a constant value counts.", "quantifier": "every schema document of any shape and nesting, every base, every reference text, every later state of the parse", "why_tests_cant": "The base of an identifier depends on all schemas around it at every depth, and the table is filled by one walk over the whole document; a test fixes one nesting.", "anchors": ["document.go: collectSubSchemaIds, nearestBaseURI, addDocument, resolveDocumentRef, composeJsonPointerPaths", "walk.go: walkSchema"]}
{"id": "C81", "title": "A reference leads to the place it names, or is reported", "statement": "A $ref that is only a fragment denotes that place of the document it is written in, and generating it yields a value generated for the schema at that place (or, beyond the reference depth, on a cycle and after the cutoff, the documented replacements). A $ref through an allOf is refused with an error for its place. A $ref that denotes nothing is reported when the schema is parsed. Exceptions in the code are exhibited: after a nested combination of another document local references are looked up in that other document, dangling references are not reported but generate a text, definitions below the top of a document cannot be referred to, and without fetchers the name of another document is ignored.", "quantifier": "every reference text and pointer of any length, every schema it is written in, every state of the parser and of the generation, every table of generators", "why_tests_cant": "Which document a fragment belongs to depends on what the parser looked at before, that is on the whole history of the parse; tests use single documents or one combination.", "anchors": ["reference.go: parseReference, referenceGenerator.Generate", "document.go: HandleDeferredReferenceResolution, GetCurrentScope, resolveDocumentRef", "merge.go: mergeSchemaNodes, mergeResolveReference", "root.go: parseDefinitions"]}
{"id": "C82", "title": "Every text that matches a pattern can be generated", "statement": "For a string pattern, each text that matches it, with unbounded repetitions within the configured limits, is generated for some random stream, whatever was drawn before. Exceptions in the code are exhibited: a dot restricted to ASCII never yields a character after the closing bracket and never a lower-case letter, any-character misses the last three printable characters, classes of more than 100000 characters are drawn from 93 of them (so [^,] never yields a blank), and a class that begins with NUL never yields it.", "quantifier": "every expression of any size and nesting, every matching text of any length, every state of the random stream", "why_tests_cant": "That no text is out of reach is a statement about all texts and all random streams; sampling cannot show that a text is never produced, nor that each of infinitely many can be.", "anchors": ["internal/regen/internal_generator.go: generator factories", "internal/regen/char_class.go: GetRuneAt, newCharClass, parseCharClass", "string.go: generatePattern"]}
{"id": "C83", "title": "A parsed schema and an options record serve several calls", "statement": "Generate may be called any number of times, with one parsed schema or several and with one options record or several, in any order. Each call ends as the first call would with what is left of the random source: no steps, references or diagnostics are carried over, so a budget used up by one call is not missing in the next, and every value of a sequence satisfies what a single generated value satisfies. The same sequence of calls with equally seeded sources returns the same values, as far as a seed determines them.", "quantifier": "every sequence of calls, generator, options record and random stream", "why_tests_cant": "The claim ranges over histories of calls: the outcome of a call must not depend on the calls before it other than through the random source.", "anchors": ["root.go: RootGenerator.Generate", "generator.go: withGeneratorOptionsDefaults, GeneratorOptions", "rand/random.go: RandUtil"]}
{"id": "C84", "title": "A seed text selects its own sequence", "statement": "NewRandUtilFromString turns a text into a seed: the sum of the characters, each multiplied by one more than the byte position at which it starts, in 64-bit arithmetic. Two texts that differ in one character of the same encoded size, and a text and a proper continuation of it, get different seeds (texts of up to a million bytes). Texts in general may collide, and a collision is exhibited.", "quantifier": "every text, position and pair of characters", "why_tests_cant": "That no two texts of these forms share a seed ranges over all pairs of texts.", "anchors": ["rand/random.go: NewRandUtilFromString"]}
{"id": "C85", "title": "A limit that is not reached does not matter", "statement": "If a generation returns a value without an error text in it and without having been cut off, and the steps it took lie within both step limits, then raising the limits (nested references, attempts for unique items, for oneOf and for conditionals, generation steps, cutoff) changes nothing: with the same random numbers the same value is returned, and the same numbers are drawn.", "quantifier": "every parsed schema, every pair of option records that differ in limits only, all random numbers", "why_tests_cant": "A test compares two limits on one schema and one seed; that a limit has no influence before it is reached is a statement about all runs.", "anchors": ["generator.go: ShouldCutoff, ShouldMinimize, ScaledRetryBudget", "reference.go: Generate", "array.go: generateConsideringUnique", "combination.go: Apply", "constraint.go: Apply", "if.go: Apply"]}
{"id": "C86", "title": "Taking schemas together is conjunction", "statement": "Schemas that agree on the type of every place are merged, when no error is reported, into a schema that allows exactly the values that all of them allow: it allows nothing that one of them forbids and forbids nothing that all of them allow, including bounds, lengths, listed values, members and items at every depth and nested allOf.", "quantifier": "every list of agreeing schemas of any nesting, every value", "why_tests_cant": "A test sees that a merged schema yields valid values; that no allowed value was lost is a statement about all values.", "anchors": ["merge.go: mergeSchemaNodes", "all_of.go: parseAllOf"]}
{"id": "C87", "title": "Numbers come from everywhere between the bounds", "statement": "For a schema that asks for a number between a minimum and a maximum (up to 2^53), every number x between them, both bounds included, has a number near it that Generate returns for suitable random numbers; where a bound is missing the range ends 10 away from the other one, and without bounds it goes from 0 to 10. Near means: apart by at most one part in 2^50 of the sum of the magnitudes of the bounds, plus 2^-1000 for underflow, in 64-bit arithmetic. The maximum itself need not come out: for the bounds 0 and 1 it never does.", "quantifier": "every schema with such bounds, every number between them", "why_tests_cant": "A finite sample of draws cannot show that no part of the range is left out.", "anchors": ["number.go: parseNumber, resolveMinMaxForNode, Generate", "rand/random.go: RandomFloat"]}
{"id": "C88", "title": "Numeric schemas with room are accepted", "statement": "An integer schema that two different integers satisfy is accepted (bounds up to 2^50, whole multipleOf up to 2^42, whole exclusive bounds). A number schema is accepted, in exact arithmetic, if two numbers satisfy it that lie multipleOf and another 2e-14 apart. With fractional exclusive bounds the claim for integers is false: between 1.5 and 3.5 lie 2 and 3, yet the schema is rejected.", "quantifier": "every combination of numeric keywords of that size, every pair of numbers that satisfy them", "why_tests_cant": "Tests can only list some satisfiable combinations.", "anchors": ["number.go: resolveMinMaxForNode, parseNumber, countMultiplesInRange"]}
