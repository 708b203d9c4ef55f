{"id": "C01", "title": "Errors accumulator loses and reorders nothing", "statement": "After any sequence of push, push_call_site, push_syn, push_result, extend and clear operations on an `Errors`, iterating it yields exactly the messages pushed since the last clear, in push order; is_empty, check and into_result report success exactly when that sequence is empty, and the Err they return contains exactly that sequence; unwrap_err/bail panic exactly when it is empty.", "quantifier": "all finite sequences of operations, all errors (including multi-message errors)", "why_tests_cant": "Operation sequences are unbounded and each pushed error may itself carry any number of messages; a test fixes one sequence.", "anchors": ["core/util.rs::Errors"]}
{"id": "C02", "title": "*_optional wrappers never lose errors and never fail", "statement": "parse2_optional, parse_attributes_optional and extract_attributes_optional always return a value: the parsed one with the error list unchanged when the underlying call succeeds, otherwise the default with exactly the underlying error messages appended after the ones already present.", "quantifier": "all token streams / objects, all initial error lists, all target types", "why_tests_cant": "Quantifies over every target parser and every prior error list.", "anchors": ["src/lib.rs::parse2_optional", "src/lib.rs::parse_attributes_optional", "src/lib.rs::extract_attributes_optional"]}
{"id": "C03", "title": "skip_meta_item stops exactly at the next top-level comma", "statement": "skip_meta_item consumes the longest prefix of the stream that has no comma outside delimited groups, never consumes the comma, never fails, is idempotent, and commas nested inside groups do not stop it.", "quantifier": "all token streams", "why_tests_cant": "Needs every nesting and length of token tree.", "anchors": ["core/parse_helpers.rs::skip_meta_item"]}
{"id": "C04", "title": "End-of-input check accepts exactly nothing or one comma", "statement": "parse_eof_or_trailing_comma succeeds if and only if the remaining tokens are empty or exactly one comma, and then leaves nothing; otherwise it reports the first offending token. peek_eof_or_trailing_comma returns true in exactly the same cases and consumes nothing.", "quantifier": "all token streams", "why_tests_cant": "iff over an infinite input space.", "anchors": ["core/parse_helpers.rs::parse_eof_or_trailing_comma", "core/parse_helpers.rs::peek_eof_or_trailing_comma"]}
{"id": "C05", "title": "Named item syntax is chosen by the first token alone", "statement": "After a field name, `=` always selects the value form, `(...)` always selects the inline form on the group's contents, and anything else selects the flag form without consuming any token; in the inline form success implies the whole group content was consumed up to an optional trailing comma. parse_named_meta_item, parse_named_meta_item_with and try_parse_named_meta_item agree on that choice.", "quantifier": "all token streams after a name, all item parsers", "why_tests_cant": "ranges over all parsers and inputs.", "anchors": ["core/parse_helpers.rs::parse_named_meta_item", "core/parse_helpers.rs::parse_named_meta_item_with", "core/parse_helpers.rs::try_parse_named_meta_item"]}
{"id": "C06", "title": "parse_first uses only the first stream", "statement": "parse_first runs the item parser on the first stream only, and succeeds only if the parser consumed that stream up to an optional trailing comma; with no streams it runs the parser on an empty stream and every error it returns is located at the name span. Leftover tokens in later streams are rejected.", "quantifier": "all lists of streams, all item parsers", "why_tests_cant": "ranges over any number of attribute streams and any parser.", "anchors": ["core/parse_helpers.rs::parse_first", "core/parse_helpers.rs::parse_empty"]}
{"id": "C07", "title": "Key paths: exactly the ::-separated identifier lists are accepted", "statement": "parse_any_path accepts exactly an optional leading `::` followed by one or more identifiers (keywords included) separated by `::`; printing any such path and parsing it back gives the same path and leaves the following tokens untouched.", "quantifier": "all paths of any length, all following tokens that do not continue the path", "why_tests_cant": "round trip over unbounded paths.", "anchors": ["core/parse_helpers.rs::parse_any_path", "core/parse_helpers.rs::key_to_string"]}
{"id": "C08", "title": "Named-field loop visits every item once, in order, and consumes everything", "statement": "When parse_struct returns Ok, every input stream is completely consumed, and the callback was called exactly once per item, in textual order across the streams, with that item's key string; when the callback or a separator fails it stops there and returns that error.", "quantifier": "all lists of streams, all stateful callbacks", "why_tests_cant": "the callback is arbitrary and the history unbounded.", "anchors": ["core/parse_helpers.rs::parse_struct"]}
{"id": "C09", "title": "Splitting keyed items over several attributes does not change the result", "statement": "For well-formed comma separated items, the result of the named-field loop (and so of a derived named struct) depends only on the concatenated list of items, not on how the items are distributed over several attributes nor on trailing commas.", "quantifier": "all item lists and all ways of splitting them, with or without trailing commas", "why_tests_cant": "exponentially many splits of unbounded lists.", "anchors": ["core/parse_helpers.rs::parse_struct", "core/parse_helpers.rs::parse_struct_attr_tokens"]}
{"id": "C10", "title": "Positional loop: at most len calls, consecutive indices, trailing comma rule", "statement": "parse_tuple_struct calls the callback with indices 0,1,2,... never reaching len, the returned count is the number of calls and at most len, everything is consumed when the count is below len, and once len items were read no further token is consumed.", "quantifier": "all stream lists, all len, all callbacks", "why_tests_cant": "unbounded loop over arbitrary callback.", "anchors": ["core/parse_helpers.rs::parse_tuple_struct"]}
{"id": "C11", "title": "Errors raised on a synthesized empty input are relocated", "statement": "parse_empty / parse_empty_meta_item report every error of the inner parser at the given span (documented). The implementation only relocates the first error of a combined error.", "quantifier": "all parsers and spans", "why_tests_cant": "needs arbitrary multi-error parsers.", "anchors": ["core/parse_helpers.rs::parse_empty", "core/parse_helpers.rs::parse_empty_meta_item"]}
{"id": "C12", "title": "Path prefix joining is inverse to prefix stripping", "statement": "On ::-separated names, join_path(a, b) is the concatenation of the segment lists, whether or not the prefix a already ends with `::`; join_prefix gives the same text with exactly one trailing `::`; an empty prefix changes nothing. Stripping a joined prefix from a key succeeds exactly when the key's segments start with the prefix's segments and then yields the remaining segments. For arbitrary strings, joining under a fixed prefix is injective, stripping join_prefix(pre, p) from join_path(join_prefix(pre, p), k) yields k, and nested prefixes compose.", "quantifier": "all segment lists; all strings for the last sentence (composition: inner prefix non-empty and not ending with ::)", "why_tests_cant": "string algebra over all strings.", "anchors": ["core/parse_helpers.rs::join_path", "core/parse_helpers.rs::join_prefix", "core/parse_helpers.rs::join_paths"]}
{"id": "C13", "title": "path_matches is exact", "statement": "path_matches returns true if and only if the path has exactly the given segment names in order and no segment has generic arguments.", "quantifier": "all paths, all name lists", "why_tests_cant": "iff over unbounded paths.", "anchors": ["core/parse_helpers.rs::path_matches"]}
{"id": "C14", "title": "SmallString is observationally a String", "statement": "For every way of building a SmallString (empty, borrowed, owned, Cow) and every sequence of push/push_str/into_owned/write operations, as_str equals the string obtained by the same operations on a plain String, and no operation panics; an inline representation never holds more than 56 bytes.", "quantifier": "all operation sequences, all Unicode strings", "why_tests_cant": "boundary depends on UTF-8 byte lengths over unbounded histories.", "anchors": ["core/small_string.rs::SmallString"]}
{"id": "C15", "title": "SmallString comparison and hashing ignore the representation", "statement": "Two SmallStrings are equal, ordered and hashed exactly as their contents, however each was produced, so hash-map lookups by &str are consistent.", "quantifier": "all pairs of representations", "why_tests_cant": "three representations times all contents.", "anchors": ["core/small_string.rs::SmallString"]}
{"id": "C16", "title": "Unknown key check and suggestion", "statement": "check_unknown_attribute reports an error iff the key is not one of the allowed names; the error names the key; a suggestion is made iff some allowed name is more similar than the threshold, and the suggested name is an allowed name of maximal similarity (the first such).", "quantifier": "all keys, all lists of allowed names, every similarity measure", "why_tests_cant": "argmax over arbitrary lists.", "anchors": ["core/parse_helpers.rs::unknown_error", "core/parse_helpers.rs::check_unknown_attribute"]}
{"id": "C17", "title": "Extraction partitions the attribute list", "statement": "take_tokens removes exactly the matching attributes, keeps all others in their original order, and yields the token streams, names and spans of the removed ones in order; a second extraction yields nothing.", "quantifier": "all attribute lists, all matching predicates", "why_tests_cant": "in-place removal loop over unbounded lists.", "anchors": ["core/parse_helpers.rs::take_tokens"]}
{"id": "C18", "title": "Parsing and extracting see the same attributes", "statement": "ref_tokens yields exactly what take_tokens yields on the same object, leaving the object unchanged; hence extract_attributes and parse_attributes return the same result for a type without container field, and extraction removes the matching attributes even when parsing fails.", "quantifier": "all attribute lists and target types", "why_tests_cant": "relates two implementations for all inputs.", "anchors": ["core/parse_helpers.rs::ref_tokens", "core/parse_helpers.rs::take_tokens", "macros/parse_attributes.rs::impl_for_struct"]}
{"id": "C19", "title": "Attribute groups must be fully consumed", "statement": "parse_struct_attr_tokens succeeds only if every matched attribute was bare or a single parenthesized group (optionally followed by one comma) and the callback consumed each group up to an optional trailing comma; leftover tokens anywhere are never silently accepted.", "quantifier": "all lists of attributes, all callbacks", "why_tests_cant": "any number of attributes, arbitrary parser.", "anchors": ["core/parse_helpers.rs::parse_struct_attr_tokens", "core/parse_helpers.rs::parse_tokens"]}
{"id": "C20", "title": "Option: omitted means None, present means Some", "statement": "A missing Option field is None; in a named context `k = v` parses to Some of what T parses; in a positional context exactly `Some(v)` and `None` are accepted; flag form is Some of T's flag; an error of T is never turned into None.", "quantifier": "all T, all token streams", "why_tests_cant": "generic in T.", "anchors": ["core/parse_meta.rs::Option"]}
{"id": "C21", "title": "Arrays: exactly N elements or an error, never a panic", "statement": "Parsing [T; N] from any streams either returns exactly the N parsed elements in order or an error; the internal unreachable! and capacity limits are never hit; if an element fails all element errors are reported.", "quantifier": "all N, T, stream lists", "why_tests_cant": "no-panic over all inputs.", "anchors": ["core/parse_meta.rs::[T; N]"]}
{"id": "C22", "title": "Tuples: all elements or an error, never a panic", "statement": "Parsing a tuple of arity n returns exactly the n element values in order or an error, and the unreachable! branches are unreachable.", "quantifier": "all arities, element types, stream lists", "why_tests_cant": "no-panic over all inputs.", "anchors": ["core/parse_meta.rs::impl_parse_meta_item_tuple"]}
{"id": "C23", "title": "Collections keep every element in order", "statement": "For a well-formed comma separated list of items, spread over any number of attributes, with or without trailing commas, Vec/VecDeque/LinkedList parse to exactly the list of element values in order; if any element fails, the result is an error containing all element errors in order.", "quantifier": "all element types, all lists, all splits", "why_tests_cant": "round trip on unbounded lists.", "anchors": ["core/parse_meta.rs::impl_parse_meta_item_collection"]}
{"id": "C24", "title": "Sets reject duplicates", "statement": "HashSet/BTreeSet parsing succeeds iff all elements parse and are pairwise distinct, and then contains exactly these elements; otherwise one \"Duplicate key\" error per repeated element is reported.", "quantifier": "all element types, lists", "why_tests_cant": "all positions of duplicates in unbounded lists.", "anchors": ["core/parse_meta.rs::impl_parse_meta_item_set"]}
{"id": "C25", "title": "Maps reject duplicates and keep every pair", "statement": "HashMap/BTreeMap parsing succeeds iff all keys and values parse and keys are pairwise distinct, and then maps each key to its value; repeated keys give an error.", "quantifier": "all key and value types, lists", "why_tests_cant": "all positions of duplicates in unbounded lists.", "anchors": ["core/parse_meta.rs::impl_parse_meta_item_map"]}
{"id": "C26", "title": "append collects exactly the matching keys in order", "statement": "An append field collects the values of all items whose key is one of its names, in textual order across attributes, ignoring all other items; errors of matching items are all reported.", "quantifier": "all item lists, all name lists", "why_tests_cant": "unbounded interleavings of keys.", "anchors": ["core/parse_meta.rs::ParseMetaAppend"]}
{"id": "C27", "title": "rest collects exactly the other keys", "statement": "A rest map contains exactly the items whose key is not a declared name, with their values; declared keys are skipped whatever their value tokens are.", "quantifier": "all item lists, all declared names", "why_tests_cant": "unbounded interleavings of keys.", "anchors": ["core/parse_meta.rs::ParseMetaRest"]}
{"id": "C28", "title": "Flag accepts only the bare name", "statement": "A Flag field is set iff its name occurs bare; `name = ...` and `name(...)` are errors; omission is unset; it never parses in a positional context.", "quantifier": "all token streams", "why_tests_cant": "all following tokens.", "anchors": ["core/util.rs::Flag"]}
{"id": "C29", "title": "SpannedValue and pointer wrappers are transparent", "statement": "Parsing SpannedValue<T>, Box<T>, Rc<T>, Cell<T>, RefCell<T>, Cow<T> succeeds exactly when T does with the same value, consumption and errors, in every parsing context including the omitted-field context.", "quantifier": "all T, contexts and streams", "why_tests_cant": "generic in T and context.", "anchors": ["core/util.rs::SpannedValue", "core/parse_meta.rs::impl_parse_meta_item_wrapper"]}
{"id": "C30", "title": "Derived struct never panics", "statement": "The parser generated for any struct definition never reaches its unreachable!/unwrap branches: on every input it returns a value or an error with at least one message.", "quantifier": "all struct definitions accepted by the derive, all inputs", "why_tests_cant": "all definitions times all inputs.", "anchors": ["macros/types/field.rs::to_pre_post_tokens", "macros/types/struct.rs::to_parsing_tokens"]}
{"id": "C31", "title": "Derived struct: each field gets the value written under one of its names", "statement": "On well-formed input a derived named struct succeeds iff every item key belongs to exactly one declared field (or unknown keys are allowed), no field is given twice, every given value parses and every field not given has a default or a missing-fallback; then each field holds the value parsed from its item, or its default.", "quantifier": "all struct definitions with plain fields, all item lists", "why_tests_cant": "semantic specification over all definitions and inputs.", "anchors": ["macros/types/field.rs::to_parsing_tokens", "macros/types/field.rs::to_pre_post_tokens"]}
{"id": "C32", "title": "Derived struct: field order in the input is irrelevant", "statement": "Permuting the items of a named struct's input does not change the parsed value, nor whether parsing succeeds.", "quantifier": "all permutations of all item lists", "why_tests_cant": "factorially many permutations.", "anchors": ["macros/types/field.rs::to_parsing_tokens"]}
{"id": "C33", "title": "Duplicate keys are always reported", "statement": "If two items name the same field (by name or alias), parsing fails and there is one \"duplicate attribute\" message per extra occurrence, and the first occurrence determines the stored status.", "quantifier": "all item lists", "why_tests_cant": "any number and placement of duplicates.", "anchors": ["core/parse_helpers.rs::FieldStatus::parse_named_item_with"]}
{"id": "C34", "title": "Unknown keys are rejected unless allowed", "statement": "With validation on, every item whose key is not a declared name yields an \"unknown field\" error and its value is skipped; with allow_unknown_fields (or validation off) unknown items never influence the result.", "quantifier": "all struct definitions, item lists", "why_tests_cant": "all unknown keys and value tokens.", "anchors": ["macros/types/field.rs::to_parsing_tokens", "core/parse_helpers.rs::check_unknown_attribute"]}
{"id": "C35", "title": "All errors are reported in one pass", "statement": "On well-formed items, the error returned by a derived struct contains the messages of every failing value, every duplicate, every unknown key and every missing field: no failure hides another.", "quantifier": "all struct definitions, item lists", "why_tests_cant": "any combination of simultaneous failures.", "anchors": ["macros/types/field.rs::to_pre_post_tokens"]}
{"id": "C36", "title": "Missing required fields are reported by their full name", "statement": "A field with no default whose key is absent makes parsing fail with a missing-field message for that field's primary name joined to the active prefix, and no other field is affected.", "quantifier": "all struct definitions, prefixes, inputs", "why_tests_cant": "all subsets of absent fields.", "anchors": ["macros/types/field.rs::to_pre_post_tokens"]}
{"id": "C37", "title": "skip and container fields are never parsed from tokens", "statement": "Tokens can never set a skipped or container field; its name is treated as an unknown key.", "quantifier": "all inputs", "why_tests_cant": "for all inputs.", "anchors": ["macros/types/field.rs::is_parsable", "macros/types/field.rs::to_parsing_tokens"]}
{"id": "C38", "title": "Field transforms run in declaration order, only on present values", "statement": "map/and_then transforms of a field are applied left to right to the parsed or default value; the first failing and_then stops the chain for that field and its error is reported.", "quantifier": "all transform chains and values", "why_tests_cant": "arbitrary user functions.", "anchors": ["macros/types/field.rs::to_pre_post_tokens"]}
{"id": "C39", "title": "flatten delegates exactly the inner struct's keys", "statement": "A struct with flattened named fields parses each flattened field from the same items as if it were parsed alone with unknown keys ignored, and the outer struct's unknown-key check accepts exactly the union of both sets of names.", "quantifier": "all struct definitions, item lists", "why_tests_cant": "composition over all definitions.", "anchors": ["macros/types/field.rs::to_parse_call_tokens", "macros/types/field.rs::to_field_names_tokens"]}
{"id": "C40", "title": "flatten(prefix) only sees prefixed keys", "statement": "With flatten(prefix = p), the inner struct sees exactly the items whose key starts with `p::`, with that prefix removed; unprefixed keys never reach it; nested prefixes accumulate.", "quantifier": "all prefixes, nestings and item lists", "why_tests_cant": "arbitrary nesting depth of prefixes.", "anchors": ["macros/types/field.rs::to_parse_call_tokens", "core/parse_helpers.rs::join_prefix"]}
{"id": "C41", "title": "Derived tuple struct assigns positions left to right", "statement": "A derived tuple struct of plain fields parses item i into field i; too many items are rejected by the enclosing context; too few are errors unless the trailing fields have defaults.", "quantifier": "all definitions and inputs", "why_tests_cant": "all lengths.", "anchors": ["macros/types/field.rs::to_parsing_tokens"]}
{"id": "C42", "title": "Struct-level default fills exactly the omitted fields", "statement": "With #[deluxe(default)] on the struct every omitted field takes the value of that field in the default value and parsing never reports a missing field.", "quantifier": "all definitions, inputs", "why_tests_cant": "all subsets of given fields.", "anchors": ["macros/types/struct.rs::to_parsing_tokens"]}
{"id": "C43", "title": "Enum: exactly one variant", "statement": "The parser of a derived enum returns a value only if exactly one (non-flattened) variant key occurs, or none occurs and a flattened/default variant applies; two variant keys always give an error naming both.", "quantifier": "all enum definitions, item lists", "why_tests_cant": "all combinations of keys.", "anchors": ["macros/types/variant.rs::to_parsing_tokens"]}
{"id": "C44", "title": "Enum never panics", "statement": "The generated enum parser never reaches its unreachable!/unwrap branches.", "quantifier": "all enum definitions, inputs", "why_tests_cant": "no-panic over all inputs.", "anchors": ["macros/types/variant.rs::to_parsing_tokens"]}
{"id": "C45", "title": "Flattened variants are selected unambiguously", "statement": "For an accepted enum definition a flattened variant is selected when its keys are present; the definition check guarantees that the selection is unique (documented: a compile error is raised otherwise).", "quantifier": "all enum definitions, item lists", "why_tests_cant": "all pairs of key sets.", "anchors": ["macros/types/enum.rs::parse_attributes", "macros/types/variant.rs::to_parsing_tokens"]}
{"id": "C46", "title": "Ambiguous struct definitions are rejected", "statement": "The derive accepts a struct or variant only if all names and aliases of its parsable fields are pairwise distinct, so that every key selects at most one field.", "quantifier": "all definitions", "why_tests_cant": "all lists of fields and aliases.", "anchors": ["macros/types/struct.rs::parse_attributes", "macros/types/field.rs::parse_attributes"]}
{"id": "C47", "title": "Contradictory field attributes are rejected", "statement": "A field definition combining two of the mutually exclusive attributes (flatten/append/rest/skip/container..., rename or alias on flattened fields, default on incompatible ones) is always rejected with an error naming them.", "quantifier": "all combinations of field attributes", "why_tests_cant": "all subsets.", "anchors": ["macros/types/field.rs::parse_attributes", "core/validations.rs::only_one"]}
{"id": "C48", "title": "Tuple struct defaults only at the end", "statement": "A tuple struct definition is accepted only if no positional field without default follows one with default, so omission is unambiguous.", "quantifier": "all definitions", "why_tests_cant": "all lengths.", "anchors": ["macros/types/struct.rs::parse_attributes"]}
{"id": "C49", "title": "only_one and all_or_none are exact", "statement": "only_one appends errors iff at least two of the listed attributes are present, one per present attribute at its span naming all candidates; all_or_none appends errors iff some but not all are present, one per present attribute naming exactly the absent ones.", "quantifier": "all lists of attributes", "why_tests_cant": "iff over unbounded lists.", "anchors": ["core/validations.rs::only_one", "core/validations.rs::all_or_none"]}
{"id": "C50", "title": "FieldStatus combinators", "statement": "FieldStatus behaves as documented under and/and_then/map/or/or_else/flatten/unwrap_or: a recorded parse error is never replaced by a default and a parsed value is never lost; unwrap panics exactly on None and ParseError; conversion to and from Option is the identity on Option.", "quantifier": "all values and functions", "why_tests_cant": "algebraic laws for all functions.", "anchors": ["core/parse_helpers.rs::FieldStatus"]}
{"id": "C51", "title": "Punctuated lists", "statement": "Punctuated<T,P> parses any P-separated list of items to the list of all item values in order.", "quantifier": "all lists", "why_tests_cant": "unbounded lists.", "anchors": ["core/parse_meta.rs::Punctuated"]}
{"id": "C52", "title": "TokenStream fields take everything up to the next comma", "statement": "A TokenStream field receives exactly the tokens up to the next top-level comma; it fails iff there are none; as flattened positional field it receives all remaining tokens.", "quantifier": "all token streams", "why_tests_cant": "all token streams.", "anchors": ["core/parse_meta.rs::TokenStream"]}
{"id": "C53", "title": "unit accepts only an empty group", "statement": "`()` parses exactly an empty parenthesized group, an empty inline context, or a flag; any other content is rejected.", "quantifier": "all token streams", "why_tests_cant": "all contents.", "anchors": ["core/parse_meta.rs::()"]}
{"id": "C54", "title": "Enum variant error lists name every candidate", "statement": "When no variant matches, the error lists exactly the variants' keys (with the active prefix), aliases joined by |, in order; disallowed flattened keys are each reported.", "quantifier": "all enum definitions, prefixes", "why_tests_cant": "all definitions.", "anchors": ["core/parse_helpers.rs::variant_required", "core/parse_helpers.rs::disallow_paths"]}
{"id": "C55", "title": "Parser progress", "statement": "Every provided parser only ever moves the stream forward: what remains afterwards is a suffix of what was there before, and every parsing loop terminates.", "quantifier": "all provided and derived parsers, all inputs", "why_tests_cant": "termination over all inputs and all type compositions.", "anchors": ["core/parse_helpers.rs", "core/parse_meta.rs", "macros/types/field.rs", "macros/types/variant.rs"]}
{"id": "C56", "title": "Item parsers do not look past their own item", "statement": "The result of parsing an item whose tokens contain no top-level comma does not depend on what follows the next comma.", "quantifier": "all provided item parsers, all inputs", "why_tests_cant": "compositional over all types.", "anchors": ["core/parse_meta.rs"]}
{"id": "C57", "title": "with:: adapters agree with the plain parsers", "statement": "from_str parses exactly a string literal accepted by FromStr; quoted parses the tokens inside a string literal completely; maybe_quoted accepts both; all errors of a quoted parse are located at the literal; optional/collection/map adapters behave as Option/Vec/Map of the adapted parser.", "quantifier": "all inputs and adapted types", "why_tests_cant": "generic in the adapted type.", "anchors": ["core/with.rs"]}
{"id": "C58", "title": "Attribute objects: attrs_mut refers to the same list as attrs", "statement": "For every syn node that supports extraction, extraction operates on the same attribute list that parsing reads; nodes without mutable attributes fail with an error instead of silently keeping attributes.", "quantifier": "all syn node variants", "why_tests_cant": "all node kinds.", "anchors": ["core/parse_attributes.rs::HasAttributes"]}
{"id": "C59", "title": "Key set helpers of enums are exact", "statement": "has_paths is true iff every key has one of its names present; remove_paths removes exactly the prefixed names given; disallow_paths reports exactly the prefixed names present, in order.", "quantifier": "all path maps, prefixes and key lists", "why_tests_cant": "all maps.", "anchors": ["core/parse_helpers.rs::has_paths", "core/parse_helpers.rs::remove_paths", "core/parse_helpers.rs::disallow_paths"]}
{"id": "C60", "title": "Attribute parsing keeps the callback's errors and never panics", "statement": "parse_struct_attr_tokens itself never panics; when the attributes are well formed and the callback fails after reading all tokens, the returned error has exactly the callback's messages.", "quantifier": "all lists of attributes, all callbacks that do not panic", "why_tests_cant": "any number of attributes, arbitrary parser and errors.", "anchors": ["core/parse_helpers.rs::parse_struct_attr_tokens", "core/parse_helpers.rs::parse_tokens"]}
{"id": "C61", "title": "SpannedValue points at the written value", "statement": "The span of a parsed SpannedValue covers the written value and nothing else: the name for a bare name, otherwise from the first token of the item to the last token of the value.", "quantifier": "all T, contexts, streams and span joins", "why_tests_cant": "generic in T; depends on span joining, which differs between compilers.", "anchors": ["core/util.rs::SpannedValue"]}
{"id": "C62", "title": "Primitive values are read exactly", "statement": "bool, String and integer fields accept exactly one literal of their kind, consume only it and yield its value, integers only when they fit; a bare name means true for bool and is an error for the others; omitting one is a missing field error.", "quantifier": "all streams, modes and integer types", "why_tests_cant": "all literals and all following tokens.", "anchors": ["core/parse_meta.rs::impl_parse_meta_item_primitive", "core/parse_meta.rs::ParseMetaItem for bool"]}
{"id": "C63", "title": "Enums reject unknown keys", "statement": "Unless allow_unknown_fields is given, a derived enum that checks its keys reports every key that belongs to none of its variants.", "quantifier": "all enum definitions, item lists", "why_tests_cant": "all keys and all combinations with known ones.", "anchors": ["macros/types/variant.rs::to_parsing_tokens", "core/parse_helpers.rs::check_unknown_attribute"]}
{"id": "C64", "title": "A flattened enum leaves other keys alone", "statement": "A derived enum flattened into a structure does not report keys that belong to the structure's other fields; checking is left to the structure.", "quantifier": "all enum definitions, structures and item lists", "why_tests_cant": "all combinations of definitions and keys.", "anchors": ["macros/types/variant.rs::to_parsing_tokens", "macros/types/field.rs::to_parsing_tokens"]}
{"id": "C65", "title": "Structures are parsed from all their attributes at once", "statement": "parse_attributes of a derived structure with named fields reads the items of all attributes with one of the declared paths, in order, as one item list: it succeeds exactly if that list gives every field a value, whichever attribute the items are in; a missing field is reported at the first attribute under the attribute's path; other attributes have no influence; and it never panics, whatever the attributes.", "quantifier": "all definitions, attribute lists and objects", "why_tests_cant": "all numbers and orders of attributes and all distributions of the items over them.", "anchors": ["macros/parse_attributes.rs::impl_for_struct", "core/parse_helpers.rs::parse_struct_attr_tokens"]}
{"id": "C66", "title": "default = expr is the last attribute of its list", "statement": "In definition attributes the value given with `default = ..` is everything up to the end of the attribute list, commas included; in the form `default(..)` it ends with the parenthesis and further attributes are read.", "quantifier": "all token sequences after the =", "why_tests_cant": "all expressions and all following attributes.", "anchors": ["macros/types/field.rs::FieldDefault", "core/parse_meta.rs::parse_named_meta_item_with"]}
{"id": "C67", "title": "Reading a definition never panics", "statement": "Whatever tokens the attributes of a field, structure, variant or enum contain, the derives return a definition or errors; they do not panic while reading it.", "quantifier": "all definitions, all attribute tokens", "why_tests_cant": "all token sequences.", "anchors": ["macros/types/field.rs::parse_attributes", "macros/types/struct.rs::parse_attributes", "macros/types/variant.rs::parse_attributes", "macros/types/enum.rs::parse_attributes"]}
{"id": "C68", "title": "Ambiguous enum definitions are rejected", "statement": "An enum is accepted exactly if its variants and attributes are, all names of variants selected by name are distinct, only variants with named fields are flattened, no two flattened variants require the same set of fields, none requires just a field with the names of another variant, and with a default every flattened variant requires some field.", "quantifier": "all enum definitions", "why_tests_cant": "all numbers of variants, fields and aliases.", "anchors": ["macros/types/enum.rs::parse_attributes", "macros/types/variant.rs::field_key"]}
{"id": "C69", "title": "The code of an accepted definition never panics", "statement": "For every definition that the derives accept, the generated parsing and extracting code never panics, whatever tokens it is given, if the types of the fields do not.", "quantifier": "all accepted definitions, all inputs", "why_tests_cant": "all definitions and all token sequences; depends on what the definition checks guarantee.", "anchors": ["macros/types/struct.rs::parse_attributes", "macros/types/enum.rs::parse_attributes", "macros/types/field.rs::to_pre_post_tokens", "macros/types/variant.rs::to_parsing_tokens"]}
{"id": "C70", "title": "A transparent structure reads what its field reads", "statement": "A structure with transparent takes in every form (after =, in parentheses, as a bare name, in attributes) exactly the tokens that its only parsed field takes; it fails with the same error, and otherwise consists of the value after the map functions, the defaults of the other fields and the container, on which the and_then functions of the structure are run in order.", "quantifier": "all accepted transparent structures, all field types, all inputs", "why_tests_cant": "all field types, tokens, numbers of skipped fields and functions.", "anchors": ["macros/types/struct.rs::to_parsing_tokens", "macros/types/struct.rs::is_transparent", "macros/types/field.rs::to_pre_post_tokens"]}
{"id": "C71", "title": "transparent(flatten_named, flatten_unnamed, append, rest) forwards to the field", "statement": "The traits listed in transparent(..), and no others, are implemented for the structure, and each behaves as that of the field: same names, same count, same tokens taken, same errors, same value wrapped in the structure, for every prefix, index and list of names.", "quantifier": "all accepted transparent structures, all field types, all inputs, prefixes, indices and name lists", "why_tests_cant": "all field types and inputs; the index of positional fields only shows in errors.", "anchors": ["macros/types/struct.rs::to_parsing_tokens"]}
{"id": "C72", "title": "The attribute derives implement the trait for the right object type", "statement": "The object type of a derived ParseAttributes or ExtractAttributes implementation is the type that the container field holds (directly, behind a reference, in an Option or both), or the type given by container(ty = ..); without a container field it is every type with HasAttributes. The lifetime is the one given, else that of the reference, else the first lifetime argument of the type, else a new one. Clone is demanded exactly if the field holds the object by value, HasAttributes exactly if the object type is a type parameter. All declared parameters are kept, new ones have new names, and names used in the definition keep their meaning.", "quantifier": "all field types, all generic parameter lists, all container attributes, both derives", "why_tests_cant": "all types and parameter lists, with all clashes of names.", "anchors": ["macros/parse_attributes.rs::impl_parse_attributes", "macros/parse_attributes.rs::impl_for_struct", "macros/parse_attributes.rs::impl_for_enum"]}
{"id": "C73", "title": "A derive either works or says why not", "statement": "A derive macro without compile error implements the traits from the accepted definition, under the path given by crate = .. or found in Cargo.toml, and the parsers of derived structures then never panic. Otherwise exactly the errors of the definition are reported, in one block; if the crate is found the traits are implemented nevertheless, with unreachable!() in every body. Unions, items that do not parse and a crate that is not found are each reported once, without implementations. With crate = .. the crate is not looked up. ParseMetaItem always is implemented, for transparent structures the traits they ask for, for others those of their kind.", "quantifier": "all items, all attributes, all outcomes of the crate lookup, all three derives", "why_tests_cant": "all definitions, and compile errors are hard to reach in tests.", "anchors": ["macros/lib.rs::derive_parse_meta_item", "macros/lib.rs::derive_parse_attributes", "macros/lib.rs::derive_extract_attributes", "macros/util.rs::get_crate_path", "macros/parse_meta_item.rs::impl_parse_meta_item", "macros/parse_attributes.rs::impl_parse_attributes"]}
{"id": "C74", "title": "A structure that accepts any key does so wherever it is flattened", "statement": "A type with allow_unknown_fields or a rest field, or with a flattened field of such a type at any depth, reports no unknown keys, and neither do the types it is flattened into.", "quantifier": "all definitions, all depths of nesting, all inputs", "why_tests_cant": "all nestings and keys.", "anchors": ["macros/types/struct.rs::to_accepts_all_tokens", "macros/types/field.rs::to_accepts_all_tokens", "macros/parse_meta_item.rs::impl_for_enum"]}
{"id": "C75", "title": "A rest field gets the items that no other field takes", "statement": "After a structure is parsed, its rest map contains exactly the items whose keys no other field has taken, each with its value, whether the structure stands alone, is flattened into another or is flattened with a prefix; no item is lost and none is given twice.", "quantifier": "all definitions with a rest map, all key and value types, all inputs, all nestings", "why_tests_cant": "all key and value types, all inputs and all ways to nest.", "anchors": ["macros/types/field.rs::to_field_names_tokens", "macros/types/field.rs::to_parsing_tokens", "core/parse_meta.rs::ParseMetaRest"]}
{"id": "C76", "title": "Making a field optional keeps the ways to write its value", "statement": "If a field of type T can be written in some way (`k = v`, `k` alone, `k(..)`), then a field of type Option<T> can be written in the same way and means Some of the same value.", "quantifier": "all types, all three forms, all inputs", "why_tests_cant": "all types that may be put in Option, also those of users, and all inputs.", "anchors": ["core/parse_meta.rs::ParseMetaItem for Option", "core/parse_meta.rs::parse_meta_item_inline", "core/parse_helpers.rs::parse_named_meta_item"]}
{"id": "C77", "title": "Keys of other variants beside the selected one are reported", "statement": "An enum that does not allow unknown fields is one of its variants: if one variant is selected, by name or by its fields, then each key that belongs to another variant or to none is reported. The names an enum announces are those of its variants and of the fields of its flattened variants.", "quantifier": "all enums, all inputs, both ways to select, top level and flattened", "why_tests_cant": "all definitions of enums with all sets of keys.", "anchors": ["macros/types/variant.rs::variants_to_parsing_tokens", "macros/types/enum.rs::to_field_names_tokens", "core/parse_helpers.rs::disallow_paths"]}
{"id": "C78", "title": "The value of a variant is written like a structure with the same fields", "statement": "What follows the name of a variant is read exactly as what follows the name of a field whose type is a structure with the same fields and attributes: the same forms (`a`, `a(..)`, `a = {..}`), values, errors and tokens taken; that of a transparent variant as the value of its field. This is so wherever the enum is used.", "quantifier": "all variants that are selected by name, all shapes, all field types, all inputs, all prefixes", "why_tests_cant": "all field types and all inputs, for every shape of variant.", "anchors": ["macros/types/variant.rs::to_field_parsing_tokens", "core/parse_helpers.rs::try_parse_named_meta_item"]}
{"id": "C79", "title": "An append field gets the values of all items with one of its names", "statement": "A field with append has the values of all items whose key is its name or an alias, after the prefix if there is one, in the order in which they are written, and fails if one of them fails; for a set also if two are equal. Such items are never duplicates or unknown. If there is none, the default of the field is used if it has one.", "quantifier": "all definitions with append fields, all element types, all inputs, all prefixes", "why_tests_cant": "all inputs with any number of items in any order.", "anchors": ["macros/types/field.rs::to_parse_call_tokens", "core/parse_meta.rs::ParseMetaAppend", "core/parse_helpers.rs::join_paths"]}
{"id": "C80", "title": "and_then functions of a whole structure or enum", "statement": "The and_then functions on a structure or enum run from the first to the last, each on the result of the one before, on exactly the value the type would have without them; the first failing one is reported and ends it; errors found before are kept. A field of that type that is not given takes the default of the type, on which the functions are not run.", "quantifier": "all definitions, functions, ways to write the value, and inputs", "why_tests_cant": "arbitrary user functions and inputs; order is only visible with functions that do not commute.", "anchors": ["macros/types/struct.rs::to_parsing_tokens", "macros/types/variant.rs::to_parsing_tokens", "macros/parse_meta_item.rs::impl_parse_meta_item"]}
{"id": "C81", "title": "An attribute that is switched off is as if it was left out", "statement": "Writing `flatten = false`, `append = false`, `rest = false`, `container = false` or `skip = false` on a field, `transparent = false` or `allow_unknown_fields = false` on a structure, `flatten = false`, `transparent = false`, `skip = false` or `allow_unknown_fields = false` on a variant, or `allow_unknown_fields = false` on an enum, has the same effect as not writing the attribute: the definition is accepted in the same cases, and the derived `ParseMetaItem`, `ParseMetaFlatNamed`, `ParseMetaFlatUnnamed` and attribute parsers behave in the same way on every input.", "quantifier": "for all structures and enums, all lists of attributes of them, of their variants and of their fields, all subsets of them that are switched off, all meanings of field types and expressions, all inputs", "why_tests_cant": "A test compares two definitions on some inputs; the claim relates every definition to the one without its switched-off attributes and equates the two generated parsers as functions.", "anchors": ["macros/types/field.rs:252-264", "macros/types/field.rs:1182-1189", "macros/types/struct.rs:117-127", "macros/types/struct.rs:426-446", "macros/types/struct.rs:530-536", "macros/types/variant.rs:523-665"]}
{"id": "C82", "title": "A flattened structure is read like fields of the outer structure", "statement": "Let a structure have a `flatten` field whose type is a derived structure with named fields. If no key belongs to fields of both, neither has a `default` of its own and the inner one has no `rest` field, the outer structure is parsed exactly as the structure in which the fields of the inner one are written out in place of the flattened field: on every input made of keys with values, the one succeeds if and only if the other does, with the same values. With `flatten(prefix = p)` the same holds for the inner fields with `p::` before their names, if the inner structure has no flattened field.", "quantifier": "for all outer and inner structures under the conditions, any number of fields before, in and after, with defaults, aliases, skipped, append, container and further flattened fields, any field types and transforms of the fields, all inputs of keys with values over any number of attributes, checked keys or not, all modes", "why_tests_cant": "A test tries one pair of structures on some inputs; the claim relates any structure to the one with the fields written out, for all inputs, including those with duplicate, unknown and missing keys.", "anchors": ["macros/types/field.rs:315-388", "macros/types/field.rs:393-470", "macros/types/field.rs:693-925"]}
{"id": "C83", "title": "A value made of items can be written in parentheses or after an equals sign", "statement": "After a key, a sequence, set, array, punctuated list, tuple, map, derived structure or derived enum is written either as `key(items)` or as `key = <delimiters>items<delimiters>`, where the delimiters depend on the type alone: brackets for lists, braces for maps, structures with named fields and enums, parentheses for tuples, tuple structures and unit structures. Both forms give the same value or the same messages, and parsing goes on at the same place; after `=` nothing but these delimiters is accepted. A transparent structure is written like its field. In both forms structures and enums report keys that are not theirs. The same holds if the type is boxed or optional.", "quantifier": "for all element, key, value, field and variant types, all structure and enum definitions, all tokens inside and behind the delimiters, and all keys", "why_tests_cant": "A test writes a few values in both forms; the claim is that the two forms can never differ, for any type and any tokens, including those that fail.", "anchors": ["core/parse_helpers.rs:400-409", "core/parse_helpers.rs:256-272", "core/parse_meta.rs:452-465", "core/parse_meta.rs:715-725", "macros/types/field.rs:895-1040", "macros/parse_meta_item.rs:261-281"]}
{"id": "C84", "title": "A flattened tuple structure is read like its fields written out", "statement": "If a field of a tuple structure is flattened and its type is another tuple structure, then the items of the outer structure are read as if the fields of the inner one were written in place of that field: the same items are accepted, and every field gets the same value, also where items are left out at the end and the fields fall back to their defaults. This holds for the items of one attribute, of several attributes of the same name, in parentheses, and for the name without any items, and whatever the inner structure is.", "quantifier": "for all outer and inner tuple structures, all positions of the flattened field, all field types, defaults and functions of the other fields, further flattened fields, and all token sequences", "why_tests_cant": "A test reads a few lists with one nesting; the claim ranges over all structures, positions and token sequences, including those that end inside the inner structure.", "anchors": ["macros/types/field.rs:528-655", "macros/types/field.rs:810-821", "macros/types/field.rs:962-1007", "core/parse_helpers.rs:513-537", "macros/parse_meta_item.rs:181-197"]}
{"id": "C85", "title": "A missing field of a tuple structure is reported under its number", "statement": "If a tuple structure gets too few items, then there is exactly one message for every required field without an item, in order, and it names the position of the field in the definition, counted from 0: `missing required field 2`. If the structure is read from attributes, the message names the attribute as well: `2 on #[path]`. Fields of a flattened tuple structure are numbered as if they were written in its place. Container fields and skipped fields count as positions.", "quantifier": "for all tuple structures, all field types, all numbers of items, and all streams", "why_tests_cant": "A test looks at one message of one structure; the claim is about all positions and all kinds of fields before the missing one.", "anchors": ["macros/types/field.rs:523-652", "macros/types/field.rs:935-960", "core/parse_helpers.rs:882-884"]}
{"id": "C86", "title": "A field of a type of proc_macro is read like one of the same type of proc_macro2", "statement": "If a field has type `TokenTree`, `TokenStream`, `Literal`, `Punct`, `Group` or `Ident` of the crate `proc_macro`, then every item is accepted or refused as for the type of the same name of `proc_macro2` (for `Ident`: of `syn`), with the converted value, the same remaining tokens, and errors at the same place. Reading it never panics.", "quantifier": "for all token streams, all ways to write the item, all modes, and all literals", "why_tests_cant": "The types of proc_macro exist only inside a running macro, so that unit tests cannot call these implementations at all.", "anchors": ["core/parse_meta.rs:1084-1201", "core/parse_meta.rs:947-1082"]}
{"id": "C87", "title": "A `rest` field does not change how the other fields are read", "statement": "If a structure with named fields has a field with `rest` that is a map, the structure is parsed exactly if the map is, and the structure without that field, with `allow_unknown_fields`, is; the other fields then have the values they have there. In particular an item that belongs to another field is read by that field only, whatever the type of the keys of the map is.", "quantifier": "for all structures, all types of keys and values, all inputs and all modes", "why_tests_cant": "The `rest` field reads the whole input again with its own type of keys; whether that goes well depends on the keys of all other fields, which a test fixes.", "anchors": ["core/parse_meta.rs:774-815", "macros/types/field.rs:391-416", "core/parse_helpers.rs:579-602"]}
{"id": "C88", "title": "Which fields may be left out, and which may be written as a bare name, depends on their type alone", "statement": "A field without `default` that is left out has the value None for Option and Flag, the empty stream for TokenStream, the default value with `with::from_str_default`, None, the empty collection or the empty map with the adapters of `with`, and is reported as missing for every other type and module. A field of which only the name is written is true for bool, () for the unit type, set for Flag, the empty stream for TokenStream, Some of that for Option, and is reported as not allowed for types that need a value.", "quantifier": "for all types of the tables, all structures with such a field, all inputs and all modes", "why_tests_cant": "Each test fixes one type in one structure with one input; the claim is about the whole table of types, nested to any depth, in any structure.", "anchors": ["core/parse_meta.rs:104-143", "core/parse_meta.rs:411-442", "core/parse_meta.rs:981-1011", "core/util.rs:536-567", "core/with.rs:7-354", "core/with.rs:376-439", "core/with.rs:461-534", "core/with.rs:604-717", "core/with.rs:761-794"]}
{"id": "C89", "title": "An enum accepts the same keys beside the name of a variant in attributes and in values", "statement": "If an enum derives both ParseAttributes and ParseMetaItem, then items that name one variant and have further keys beside it are accepted from attributes exactly if they are as a value of the type; in particular a key that the enum does not know is reported.", "quantifier": "for all enums, all attributes and all inputs in which one variant is named", "why_tests_cant": "Whether keys are checked depends on attributes of variants that are not selected; the combination of such a variant, another variant and an unknown key is not something tests enumerate.", "anchors": ["macros/types/enum.rs:44-67", "macros/parse_attributes.rs:129-148", "macros/parse_meta_item.rs:269-275", "core/parse_meta.rs:212-215", "macros/types/variant.rs:367-377", "macros/types/variant.rs:411-429"]}
{"id": "C90", "title": "A key has one string, whichever method of ToKeyString asks for it", "statement": "For every type of the crate that implements ToKeyString, with_key_string calls its function with exactly the string that fmt_key_string writes and key_to_string returns, without panicking; for a path without generic arguments it is the segments joined with `::`, also inside Box, Rc and the like, which is the string that derived structures use to recognise a key.", "quantifier": "for all implementing types, nested to any depth, and all their values", "why_tests_cant": "Half of the implementations override with_key_string; that both methods agree has to hold for every nesting of types and for strings of any length, across the switch from inline to heap storage.", "anchors": ["core/parse_meta.rs:255-266", "core/parse_meta.rs:357-402", "core/parse_meta.rs:444-456", "core/parse_meta.rs:511-522", "core/parse_meta.rs:596-607", "core/parse_meta.rs:695-706", "core/parse_meta.rs:817-836", "core/parse_meta.rs:876-945", "core/parse_meta.rs:1260-1275", "core/parse_meta.rs:1404-1418", "core/parse_meta.rs:1463-1472", "core/parse_meta.rs:1519-1531", "core/parse_helpers.rs:726-739", "core/small_string.rs:222-263", "core/with.rs:627-636"]}
{"id": "C91", "title": "A SmallString field holds the value of the string literal, like a String field", "statement": "A field of type SmallString accepts the same inputs as a field of type String, reports the same errors, and has the same characters.", "quantifier": "for all string literals, plain or raw, with any escapes, and all inputs", "why_tests_cant": "No test of the crate uses SmallString as a field; the claim is about every literal and every form of it.", "anchors": ["core/small_string.rs:242-252", "core/parse_meta.rs:349-356"]}
{"id": "C92", "title": "In the ParseMetaItem derive a container field needs no default", "statement": "As documented, `default` is implied on container fields of a type that derives ParseMetaItem: the definition is accepted without it, and in every way of reading a value the field has the value of its `default` attribute, or of `Default::default()` if it has none, also when the structure has a default of its own.", "quantifier": "for all accepted definitions with container fields, all field types and all inputs", "why_tests_cant": "The claim is about each definition and each input that is read; tests derive ParseMetaItem for a few structures with a container field and never for an enum.", "anchors": ["macros/lib.rs:83-88", "macros/parse_meta_item.rs:40-46", "macros/parse_meta_item.rs:232-244", "macros/types/field.rs:505-522"]}
{"id": "C93", "title": "A container field holds the object whose attributes are read", "statement": "In a value read with parse_attributes, every container field, as a value, an Option, a reference or an optional reference, holds the object that was passed; after extract_attributes it holds the object without the extracted attributes. It holds for structures of all shapes and for all variants of an enum.", "quantifier": "for all accepted definitions, all implementations of HasAttributes, all container types, all objects and attributes", "why_tests_cant": "The attributes are consumed while the object is borrowed, cloned or referenced; that it is the object before or after the removal has to hold for every list of attributes and every place of the field.", "anchors": ["core/parse_attributes.rs:562-628", "macros/types/field.rs:505-522", "macros/parse_attributes.rs:90-180", "macros/types/struct.rs:160-260", "macros/lib.rs:68-95"]}
{"id": "C94", "title": "The attributes of a definition mean what is written", "statement": "Every attribute that the derives accept, written in any of the ways `key`, `key = value`, `key(value)`, `key(option = value, ..)`, `key = {..}` and `key = [..]` that its documentation allows, is read with the value that is written: `flatten` with its prefix, `container` with its lifetime and type, `transparent` with each of its options, booleans, names, expressions and lists of paths. A field is accepted exactly if the attributes written fit together, spread over one or several #[deluxe(..)], and the generated code then has exactly those names, defaults, prefixes, switches and functions, in that order.", "quantifier": "for all fields, structures, variants and enums, all attribute lists in all written forms, all external parsers of paths, types and lifetimes", "why_tests_cant": "Each attribute has several written forms with nested option lists that may come in any order and number; tests use a few per attribute, and a mixed up option shows only in code generated from it.", "anchors": ["macros/types/field.rs:20-201", "macros/types/field.rs:1000-1230", "macros/types/struct.rs:20-103", "macros/types/struct.rs:390-520", "macros/types/variant.rs:470-640", "macros/types/enum.rs:60-150"]}
{"id": "C95", "title": "Mistakes in the attributes of a definition are never ignored", "statement": "If a #[deluxe(..)] attribute of a field, structure, variant or enum contains a key that does not exist there, a value that cannot be read, or an unknown or unreadable option inside `flatten(..)`, `container(..)` or `transparent(..)`, the definition is not accepted, whatever else is written. If the attributes are allowed at their places, every mistake is reported in the same compilation, in the order of the source: an unknown key with its name, its place and the similar known key, an unreadable value with its own messages, and the mistakes of fields and variants together with those of the type.", "quantifier": "for all definitions, all attribute lists in which every item starts with a key, all mixtures of mistakes and correct attributes, all external parsers", "why_tests_cant": "A mistake that is dropped or hides others only shows with several of them at once, at different depths and in attribute combinations no test enumerates.", "anchors": ["macros/types/field.rs:88-201", "macros/types/field.rs:1059-1210", "macros/types/struct.rs:51-91", "macros/types/struct.rs:397-569", "macros/types/variant.rs:505-696", "macros/types/enum.rs:175-318"]}
{"id": "C96", "title": "The generated code only uses variables that exist", "statement": "For every definition that a derive macro accepts, each function it generates uses only variables (input, inputs, errors, allowed, prefix, validate, index, span, mode, the statuses of the fields, ...) that are parameters or bound before the use in a surrounding block, so the code does not fail to compile with `cannot find value` in a place the user did not write. Exactly: this holds for a structure unless it is transparent and a field has `and_then`, and for an enum unless a variant that is not skipped is both `flatten` and `transparent`.", "quantifier": "for all accepted structures and enums, all attribute combinations, all shapes, the three derive macros", "why_tests_cant": "The generated code depends on the combination of shape, attributes and derive; tests compile a handful of definitions, and each combination not among them may fail to compile in the user's crate.", "anchors": ["macros/types/field.rs:206-1000", "macros/types/struct.rs:97-395", "macros/types/variant.rs:40-500", "macros/types/enum.rs:27-166", "macros/parse_meta_item.rs:60-330", "macros/parse_attributes.rs:33-172", "macros/parse_attributes.rs:343-361"]}
{"id": "C97", "title": "The generated code leaves no type open and mixes no types", "statement": "For every definition that a derive macro accepts, each `<_ as Trait>::function()` in the generated code that has no argument has its type determined by the definition, and the cached lists of names are of the type their cells are declared with. Exactly: for a structure this holds if it is transparent, or no flattened field that is parsed has `map` or `and_then` and, in a tuple structure without default, no field with these before a required one is flattened; for an enum if the same holds for each variant that is neither skipped nor transparent and no flattened variant has a field with `flatten(prefix = ..)`.", "quantifier": "for all accepted structures and enums, all attribute combinations, all shapes, the three derive macros", "why_tests_cant": "Whether a type is left open depends on which attributes meet on a field and on its neighbours; tests contain none of the failing combinations.", "anchors": ["macros/types/field.rs:206-360", "macros/types/struct.rs:97-395", "macros/types/variant.rs:40-500", "macros/types/enum.rs:68-166", "core/parse_helpers.rs:770-790"]}
{"id": "C98", "title": "The arguments of an attribute macro are read like one attribute of a derive", "statement": "For a type that derives both ParseMetaItem and ParseAttributes, `deluxe::parse(args)` in an attribute macro and the attribute `#[attr(args)]` of a derive macro accept the same arguments and give the same value; only the labels and places in messages differ (a missing field is reported at the call of the macro, under its name).", "quantifier": "for all accepted structures and enums without container field, all token lists, all attribute paths and objects", "why_tests_cant": "The two entry points reach the generated code through different wrappers (syn's parse2 and parse_struct_attr_tokens) with different end-of-input checks and labels; tests use each with a few inputs and never compare them.", "anchors": ["src/lib.rs:642-665", "core/parse_attributes.rs:16-30", "core/parse_helpers.rs:628-720", "macros/parse_attributes.rs:33-172", "macros/parse_meta_item.rs:50-330"]}
{"id": "C99", "title": "A skipped variant is as if it was not written", "statement": "A variant with `skip` has no effect on parsing: the enum accepts the same input with the same values, messages and remaining tokens as the enum without that variant, whether it is parsed as the value of a field, flattened, or from attributes; and the enum is accepted by the derive whenever the enum without it is.", "quantifier": "for all enums, all variants, all attribute inputs, all prefixes and modes, all defaults and and_then functions", "why_tests_cant": "`skip` is checked separately in the match arms, the list of names, the flattened matches, the messages and ACCEPTS_ALL; tests have one skipped variant in a small enum.", "anchors": ["macros/types/variant.rs:34-36", "macros/types/variant.rs:226-410", "macros/types/variant.rs:468-497", "macros/types/enum.rs:44-165", "macros/types/enum.rs:226-304", "macros/lib.rs:232-236"]}
{"id": "C100", "title": "Messages point into the attribute they are about", "statement": "Every message of a failed parse points to a token of the parsed input: for an attribute macro to the tokens between its parentheses, for a derive to the path or the tokens of an attribute that belongs to the type (never to attributes of other macros), and for the value of an item to that item's key, its tokens, the comma after it or the end of its list.", "quantifier": "for all provided and derived types at any nesting, all attribute lists, all token inputs and spans, all Span::join behaviours", "why_tests_cant": "the spans of messages are not visible to tests that run outside of a compiler, and the tests compare texts only; there is one place per error in about forty functions.", "anchors": ["core/parse_helpers.rs:30-120", "core/parse_helpers.rs:862-876", "core/parse_helpers.rs:944-1010", "core/parse_meta.rs:1-1551", "core/with.rs:1-794", "macros/types/field.rs:480-1030", "macros/types/variant.rs:226-497", "macros/parse_attributes.rs:302-359"]}
{"id": "C101", "title": "The order in which the fields of a named structure are declared does not matter", "statement": "If the fields of a structure with named fields are declared in another order (and its default and its and_then functions say the same about the moved fields), the derive accepts it as before, the derived code accepts the same inputs with the same values for each field, leaves the same input, and refuses the others with the same messages in some order. A name of a field never leads to two fields.", "quantifier": "for all named structures with any attributes on their fields, all permutations, all inputs and modes, in every context (item, flattened, attributes of an object)", "why_tests_cant": "a test fixes one declaration; the claim compares two declarations on all inputs, with duplicates, defaults, flattened, append and rest fields interacting.", "anchors": ["macros/types/field.rs:299-388", "macros/types/field.rs:480-783", "macros/types/field.rs:875-925", "macros/types/struct.rs:160-199", "macros/types/struct.rs:397-569", "core/parse_helpers.rs:900-916"]}
{"id": "C102", "title": "A skipped field has no effect on parsing", "statement": "A field with skip (or the container field) can be left out of a structure with named fields without changing which inputs are accepted, what they leave, and the values of the other fields; the left out field always has its default.", "quantifier": "for all named structures with any attributes, all sets of fields that are not parsed, all inputs and modes", "why_tests_cant": "a test can only try some keys on some structures; the claim is that the field is never looked at, by any of the passes of the derived code.", "anchors": ["macros/types/field.rs:255-264", "macros/types/field.rs:299-388", "macros/types/field.rs:510-544", "macros/types/field.rs:715-783", "macros/types/struct.rs:140-145"]}
{"id": "C103", "title": "The names that a derived type reports do not depend on what was parsed before", "statement": "field_names() of a derived type always returns the names of its own fields (with those of the flattened types), no matter which other types were asked before it and how often; the call returns.", "quantifier": "for all derived structures and enums, all nestings of flattened fields with and without prefix, all sequences of calls in one program", "why_tests_cant": "the lists are kept in static cells that live as long as the process; a test process has one order of calls, and within one test each type is usually asked first for itself.", "anchors": ["macros/types/field.rs:315-388", "macros/types/enum.rs:68-165", "macros/parse_meta_item.rs:136-150", "src/lib.rs:591"]}
{"id": "C104", "title": "A field is read through its with module, or else through the one trait for its role", "statement": "The code that a derive generates calls for a field only functions from the documented source: those of the module given by `with`, or the trait for the role of the field (ParseMetaItem, ParseMetaFlatNamed, ParseMetaFlatUnnamed, ParseMetaAppend, ParseMetaRest) of the type of the field, or with `map`/`and_then` of the type that the first function takes. Fields with `skip` are not read, and every other field is.", "quantifier": "for all accepted structures and enums, all combinations of field attributes, and all three derives", "why_tests_cant": "it is about which implementations the generated code requires; a test shows only that one definition compiles, and a definition with the traits implemented anyway compiles even if they should not be needed.", "anchors": ["macros/types/field.rs:266-487", "macros/types/field.rs:507-690", "macros/types/struct.rs:206-365", "macros/types/variant.rs:75-139", "macros/types/enum.rs:47-165", "macros/lib.rs:322-396"]}
{"id": "C105", "title": "The order of the variants of an enum does not matter", "statement": "An enum derive parses every input in the same way in whatever order its variants are declared: the same variant with the same values is chosen, and otherwise the same messages are given, up to their order, the order of the names that they list, and the name that is suggested. This holds as an item in every form, as a missing item, flattened into a structure, and for the attribute derives. An accepted definition is also accepted with its variants rearranged.", "quantifier": "for all accepted enums with named, tuple, unit, transparent, flattened and skipped variants, all rearrangements, all prefixes and inputs", "why_tests_cant": "tests try one order of one definition; the generated code is a match on names and a chain of conditions whose outcome could depend on the order for rare combinations of keys.", "anchors": ["macros/types/variant.rs:225-466", "macros/types/enum.rs:44-165", "macros/types/enum.rs:225-330", "macros/parse_meta_item.rs:218-324"]}
{"id": "C106", "title": "The generated implementations are complete and take no names from the item", "statement": "The implementations that derive(ParseMetaItem) emits are ones that the compiler takes: each trait once, with every function that the trait requires, each once, and nothing that does not belong to the trait. Where an optional function is left out the behaviour is the one that the trait provides. The generic parameters of the generated functions are no names that the item declares or that its fields use, so the types of the fields keep their meaning.", "quantifier": "for all items, all attributes (accepted or rejected), all shapes, all combinations of transparent(..), all names", "why_tests_cant": "a test compiles one definition; a clash of names or a missing function shows up only for the right combination of shape, options and names.", "anchors": ["macros/parse_meta_item.rs::impl_for_struct", "macros/parse_meta_item.rs::impl_for_enum", "macros/parse_meta_item.rs::impl_parse_meta_item", "macros/types/struct.rs:252-365", "core/parse_meta.rs:76-247"]}
{"id": "C107", "title": "A repeated attribute of a definition is reported by its name", "statement": "If an attribute of a field, structure, variant or enum that may be given once, or an option of flatten(..), container(..) or transparent(..), is given a second time, in the same #[deluxe(..)] or in another one, the definition is refused and one of the messages says, where it is given again, that it is a duplicate, with the name that was written. All other mistakes are reported too, in order.", "quantifier": "for all definitions, all attribute lists, any number of attributes and repetitions, all values and other mistakes between them", "why_tests_cant": "a test repeats one attribute; the message comes from a status per attribute, whose name is written by hand for each of them.", "anchors": ["core/parse_helpers.rs::FieldStatus::parse_named_item_with", "macros/types/field.rs:1056-1180", "macros/types/struct.rs", "macros/types/variant.rs", "macros/types/enum.rs"]}
{"id": "C108", "title": "Locations cover what the message is about", "statement": "Where the compiler can join spans, the location of a key, at which the messages about it are reported, covers every token of the key, and inputs_span covers the place of every input; where it cannot, they are the place of the first token and of the first input.", "quantifier": "for all keys of any number of segments, all lists of inputs, all ways in which spans are joined", "why_tests_cant": "span joining is not available to unit tests and differs between compilers.", "anchors": ["core/parse_helpers.rs::parse_any_path", "core/parse_helpers.rs::inputs_span", "core/parse_helpers.rs:571-600"]}
{"id": "C109", "title": "What is read does not depend on where it is written", "statement": "Reading the same tokens at other places gives the same value, with the other places in it, or the same messages at the other places, and stops at the same token. In particular whether an input is accepted, the value read and the texts and order of the messages are decided by the text alone: they are the same for tokens from another macro that all carry one location, and the same on compilers that can join spans and on those that cannot.", "quantifier": "for all provided types in any combination, all derived structures and enums with flattened, appended, rest and container fields, all with modules, all attribute derives on all objects, all inputs, all ways to move locations that respect joining", "why_tests_cant": "tests run proc-macro2 without a compiler, where all spans are alike; that nothing else depends on them concerns every parser.", "anchors": ["core/parse_helpers.rs", "core/parse_meta.rs", "core/util.rs::SpannedValue", "core/util.rs::Flag", "core/with.rs", "macros/types/field.rs", "macros/types/variant.rs", "macros/parse_attributes.rs"]}
{"id": "C110", "title": "The text of a message tells which mistake it is", "statement": "Two different messages of the library never read the same: from the text one can tell which mistake it is, which names, variants, alternatives and lengths it is about, and in which order they are listed, as long as names are free of backticks, bars, commas and parentheses. The name a message is about is the first one in quotes. A message that quotes a token is not mistaken for any other. The words of a message do not depend on locations.", "quantifier": "for all messages, all names, all lists of variants and alternatives, all numbers, all ways to print tokens", "why_tests_cant": "tests compare the text of some messages; that no two coincide quantifies over all names and lists.", "anchors": ["core/parse_helpers.rs::unknown_error", "core/parse_helpers.rs::missing_field_error", "core/parse_helpers.rs::parse_eof_or_trailing_comma", "core/parse_helpers.rs::only_one_variant", "core/validations.rs", "core/parse_meta.rs", "core/util.rs"]}
{"id": "C111", "title": "Every value can be written", "statement": "For every value of a type there are tokens that are read as it: as an element of a list, inside of `Some(..)`, after `name =` and as an item after its name. This holds for numbers, strings, characters, identifiers, literals, groups, `Vec`, arrays, sets, maps, tuples, `Option`, the wrappers and for derived structures and enums whose fields are such types, whatever names, defaults and functions they have, as far as each field can be given by one of its names or has its value when it is left out. Flattened, append and rest fields of structures with named fields are included as far as no key belongs to two fields, and flattened variants as far as their keys select them. A flattened field of a tuple structure is written by several items: a tuple structure, a tuple and an array by one for each of its parts, whatever follows, a `Vec` by all that are left. For a structure with named fields an attribute with such tokens gives the value. Not everything can be written: a token stream with a comma, an empty one in a list, `None` by name and `Some(None)` in a field of the type `Option<Option<T>>`.", "quantifier": "for all types built this way, all their values, all that may follow", "why_tests_cant": "tests write some values of some types; that none is out of reach quantifies over all values of types nested without bound.", "anchors": ["core/parse_meta.rs", "core/parse_helpers.rs::parse_named_meta_item_with", "core/parse_helpers.rs::parse_first", "macros/types/struct.rs", "macros/types/enum.rs", "macros/types/variant.rs"]}
{"id": "C112", "title": "A value that was read is not rejected afterwards", "statement": "`syn` remembers the first token that was left in a group and reports it when the outermost parser returns, although all functions in between returned a value. For the types provided by the library and for derived structures and enums this never decides the outcome: the input of a macro gives the value that was read or the error that was met, and only tokens after the value are rejected; attributes give the value if each is read up to its end or one comma. It fails for `()` and for the types of `syn` that are read from parentheses: they accept whatever else is in the parentheses. In a structure with plain fields the macro is then rejected with \"unexpected token\" after the value was read; beside an appended field, or in an enum, the same tokens are accepted without notice.", "quantifier": "for all types built this way and all tokens; the counterexamples for all left tokens", "why_tests_cant": "tests look at some inputs that are right; whether every path through nested parsers reads its groups to the end quantifies over all inputs and nestings.", "anchors": ["core/parse_helpers.rs::parse_struct_attr_tokens", "core/parse_meta.rs:1303-1319", "core/parse_meta.rs:1440-1446", "core/util.rs", "src/lib.rs:642-665", "macros/types/struct.rs", "macros/types/enum.rs"]}
{"id": "C113", "title": "Which error is reported for attributes that are not read to the end", "statement": "The attributes of an item are read together. The outcome is that of the function that reads them, or of the check that each attribute is at its end, unless a token is left in one of the groups, is noted there as unexpected or follows a group: then only the first such token, in the order of the attributes, is reported, as an unexpected token, and all other errors are dropped. If an attribute is malformed (`#[x = value]`, `#[x[..]]`, `#[x{..}]`), nothing is read, the attributes behind it are not looked at, and the report points to the first token of the attributes in front of it, with which nothing is wrong; only if these are empty to the value, or, for brackets and braces, to the call of the macro.", "quantifier": "for all attributes, all functions that read them, all derived types", "why_tests_cant": "tests show the message of some wrong attributes; which of several errors comes out depends on how many attributes there are, where each is wrong and what was left unread, without bound.", "anchors": ["core/parse_helpers.rs::parse_struct_attr_tokens", "core/parse_helpers.rs::parse_tokens", "core/parse_helpers.rs:644-665", "core/parse_helpers.rs:935-960"]}
{"id": "C114", "title": "Suggestions for misspelt attributes of a definition", "statement": "If an attribute of a deluxe definition is misspelt, the report names it and suggests the attribute that exists for this kind of item and is most similar to it, if one of them is similar enough, and nothing otherwise. This holds for fields, structures, variants, enums and the options of flatten, container and transparent. The code breaks it for enums, where allow_unknown_fields is never suggested, and suggests on tuple fields attributes that are refused there.", "quantifier": "for all definitions, all lists of attributes with any number of misspelt ones, all measures of similarity", "why_tests_cant": "tests try some misspellings; which of the names is suggested depends on the similarity to all of them, and on the list that is kept beside the match over the names.", "anchors": ["macros/types/field.rs::field_names", "macros/types/enum.rs:22-25", "macros/types/struct.rs", "macros/types/variant.rs:17-40", "core/parse_helpers.rs::unknown_error"]}
{"id": "C115", "title": "r# in the names of fields, variants and keys", "statement": "r#x and x are the same identifier. A field or variant declared as r#x is accepted and rejected like one declared as x and is given in attributes under the same names, x if it is not renamed. The code breaks this where it does not remove r#: renaming x to r#x or r#x to x is not seen as renaming it to its own name, and a key written r#x in an attribute is unknown in a structure with the field x. The own name of a variant is looked for as its identifier although its name is that in snake case, so a variant X can by no attributes get the name X.", "quantifier": "for all fields and variants with all lists of attributes, all structures and all keys", "why_tests_cant": "tests use a keyword as a field at most once; that nothing else depends on r# concerns every attribute and every name.", "anchors": ["macros/types/field.rs:1185-1200", "macros/types/variant.rs:572-645", "core/parse_helpers.rs::parse_named_meta_item_with"]}
{"id": "C116", "title": "A flattened variant is read like a structure with its fields", "statement": "If the keys that are given belong to a flattened variant of an enum and to no other variant, the enum has the value that a structure with the fields of this variant has when it is read from the same attributes, and where the structure is not accepted the enum is not either, with the same messages. The code breaks this for fields that may be left out because of their type: a field of type Option without the attribute default has to be given for the variant to be chosen, although the structure may be written without it.", "quantifier": "for all enums, all their flattened variants, all lists of attributes", "why_tests_cant": "tests use flattened variants whose fields are all required; that the choice and the reading agree concerns every set of keys and every kind of field.", "anchors": ["macros/types/variant.rs:37-53", "macros/types/variant.rs:285-470", "macros/types/enum.rs:68-165"]}
{"id": "C117", "title": "Attributes of a definition at a place where they are not allowed", "statement": "An attribute that is not allowed on a field, structure or variant (append and rest on tuple fields, allow_unknown_fields on tuples, default on unit structures, transparent where there is not exactly one field it could be for) is reported at its key with the reason, whatever its value is, and hides no other mistake: all mistakes in the same and in other lists and in the fields are reported together with it, in order. The code breaks this for rename and alias on tuple fields: their value is not skipped, so all that is reported is an unexpected token.", "quantifier": "for all fields, structures and variants with all lists of attributes", "why_tests_cant": "tests show single misplaced attributes; that nothing else is hidden concerns every combination of mistakes and every value of the misplaced attribute.", "anchors": ["macros/types/field.rs:1076-1181", "macros/types/struct.rs:417-501", "macros/types/variant.rs:522-630"]}
{"id": "C118", "title": "The last item of a list is read like any other", "statement": "Whether an item is accepted, its value and where its parser stops do not depend on whether the list ends after it or a comma and further items follow. So a comma after the last item of a list or of the fields of a structure may be written or left out, and items that can each be read on their own give a structure with named fields the same values in whatever order they are written. This holds for every type and with module; of SpannedValue only for the value, as its span reaches to the comma or to the end of the list, and not for TokenTree, which takes the comma for its value.", "quantifier": "for all types of the library in any combination, all tokens of an item and everything that may follow it", "why_tests_cant": "tests use some types in some positions; that no type treats the end of the list differently from a comma concerns every type, every combination and every token list.", "anchors": ["core/parse_meta.rs:15-143", "core/parse_meta.rs:300-1100", "core/parse_helpers.rs:300-420", "core/util.rs:300-360", "core/with.rs:1-420"]}
{"id": "C119", "title": "Extending a definition keeps the old inputs valid", "statement": "If a structure with named fields gets further fields that may be left out (with a default, or of a type that may be missing), further names for its fields, a default for a field that had to be given, or allow_unknown_fields, then every input that was accepted is still accepted, and the fields that were there have the same values. The new names must not have been names of the structure, and the structure must have refused unknown keys. Likewise an enum that gets further variants at its end, or further names for its variants, reads every input as before that it accepted, if the new names were no keys of the enum before. And a tuple structure that gets further fields at its end which may be left out, or defaults for fields that had to be given, reads the items it accepted with the same values for the old fields, also with a comma after the last of them.", "quantifier": "for all structures with named fields, all tuple structures and all enums, all such extensions, all inputs and all forms in which the structure is read", "why_tests_cant": "compatibility relates two versions of a definition on all inputs the first one accepts; tests only exist for one version and some inputs.", "anchors": ["macros/types/field.rs:240-1030", "macros/types/struct.rs:110-250", "macros/parse_meta_item.rs:60-210", "core/parse_helpers.rs:405-470", "macros/types/variant.rs:226-470", "core/parse_helpers.rs:513-545"]}
{"id": "C120", "title": "Types that read different attributes do not interfere", "statement": "Attributes with other paths than the declared ones have no influence on what a type reads. So for two types without container field that share no path of the object, extracting them in either order gives the same two results, errors included, and leaves the same object; parsing one gives the same before and after the other was extracted; and extracting a type a second time finds nothing, gives what it gives for an object without such attributes, and leaves the object as it is.", "quantifier": "for all pairs of types without container field, all declared paths, all objects with attributes, and whether reading succeeds or not", "why_tests_cant": "independence relates all orders of the calls for all pairs of types; tests fix one object and one order.", "anchors": ["core/parse_attributes.rs:37-90", "core/parse_attributes.rs:505-627", "macros/parse_attributes.rs:302-359", "core/parse_helpers.rs:935-1000"]}
{"id": "C121", "title": "A default of the whole structure acts like defaults of its fields", "statement": "Giving a structure a default and giving each of its fields without a default the value of that field in the structure's default are the same for everything that is read: as a whole item, as a list of items, as a flag, behind a key, flattened by name or by position, and from attributes, with or without container field, the two give the same value, the same messages and consume the same tokens.", "quantifier": "for all structures (named, tuple, unit, transparent), all defaults and all inputs", "why_tests_cant": "an equivalence of two definitions over all inputs, including all failing ones; tests compare a few accepted inputs of one definition.", "anchors": ["macros/types/field.rs:523-811", "macros/types/struct.rs:160-250", "macros/parse_meta_item.rs:202-205", "macros/parse_meta_item.rs:376-383"]}
{"id": "C122", "title": "It does not matter under which of its names an item is written", "statement": "Replacing the key of an item by another name of the same field (its name, renamed name or an alias) changes nothing: the structure gives the same values or the same messages, word for word, also about repeated items, and also if the structure has append, rest and flatten fields and is itself flattened or nested; the names of a field of a flattened structure may be exchanged in the same way. The value of an enum is the same under whichever of its names a variant is written.", "quantifier": "for all named structures and all enums, all inputs (also ones that are rejected, for other reasons or because of the item), and any number of exchanged keys at once", "why_tests_cant": "relates two runs on arbitrary inputs; tests check that an alias is accepted in one well-formed input.", "anchors": ["macros/types/field.rs:875-929", "macros/types/field.rs:397-435", "macros/types/field.rs:315-388", "core/parse_helpers.rs:225-290", "macros/types/variant.rs:258-295"]}
{"id": "C123", "title": "Renaming fields or variants changes their keys and nothing else", "statement": "If the names of the fields of a structure are changed (rename, alias; different names stay different) and the keys of the items of an input are changed in the same way, the new structure accepts the new input exactly if the old one accepted the old input, and with the same value: whatever the order, spelling and values of the items, with defaults, functions, append fields and flattened structures whose names stay the same, as items of attributes, in parentheses and in braces. Unknown keys stay unknown. The same holds for the variants of an enum without flattened variants.", "quantifier": "for all named structures without rest field and all enums without flattened variants, all injective renamings, and all inputs that consist of items", "why_tests_cant": "relates two definitions and two inputs, for all of both; a test fixes one definition and one input.", "anchors": ["macros/types/field.rs:875-929", "macros/types/field.rs:315-388", "macros/types/field.rs:397-435", "macros/types/field.rs:721-783", "macros/types/variant.rs:258-295"]}
{"id": "C124", "title": "An item that is ignored is as if it was not written", "statement": "Leaving out items whose keys are none of the names of a structure changes neither its value nor any of its messages, if these keys are not reported: with allow_unknown_fields all keys other than the names of its fields, append fields and flattened fields; in a flattened structure the keys of the outer one. What is written after such a key does not matter, as long as it ends at the next comma; neither do the other items, which may be malformed. The same holds for sequences and sets with append (keys of other names), maps with rest (keys that belong to other fields), and enums without flattened variants (keys of no variant).", "quantifier": "for all named structures and enums without flattened variants, all inputs, and all choices of ignored items to leave out", "why_tests_cant": "relates all pairs of inputs that differ in ignored items, for all definitions; a test compares one pair for one definition.", "anchors": ["core/parse_helpers.rs:606-621", "macros/types/field.rs:397-435", "macros/types/field.rs:875-929", "core/parse_meta.rs:570-600", "core/parse_meta.rs:661-690", "macros/types/variant.rs:360-450"]}
{"id": "C125", "title": "The value of a field depends on its own items alone", "statement": "If a structure with named fields accepts two lists of items that contain the same items for one of its fields, in the same order, then this field has the same value in both: whichever items of other fields there are, where they stand between the items of this one, what their values are, and whether there is a comma at the end. The items of a plain field are those with one of its names, those of an append field the ones it collects, those of a flattened structure the ones that belong to one of its fields, and those of a rest field the ones that belong to no other field.", "quantifier": "for all named structures (without and_then functions of the structure itself), all their fields, all pairs of inputs that agree on the items of the field", "why_tests_cant": "a noninterference property: it relates all pairs of inputs that differ arbitrarily in the items of other fields; tests compare single pairs.", "anchors": ["core/parse_helpers.rs:606-621", "macros/types/field.rs:397-435", "macros/types/field.rs:875-1000", "core/parse_meta.rs:570-600", "core/parse_meta.rs:661-690"]}
{"id": "C126", "title": "Items of fields that may be omitted can always be left out", "statement": "If a structure with named fields accepts a list of items, it also accepts the list without any of the items of those fields that may be omitted: fields with a default, fields whose type has a value for a missing item (such as Option), and all plain fields if the structure has a default. The same holds for the items of such fields of flattened structures, at any depth. The values of all other fields, including flattened, append and rest fields, are the same as before, and a field whose item was left out gets its default, the value of its type for a missing item, or the field of the default of the structure.", "quantifier": "for all named structures (without and_then functions of the structure itself), all accepted inputs, and all choices of items of omissible fields to leave out, at any place and in any number; and for all variants with named fields, for the items in the parentheses after their name, read alone or as the only item of an enum without and_then functions", "why_tests_cant": "relates the result for an input to the results for all its parts; tests try some of them for single definitions.", "anchors": ["macros/types/field.rs:397-435", "macros/types/field.rs:540-639", "macros/types/field.rs:875-1000", "core/parse_helpers.rs:606-621", "core/parse_meta.rs:435-442"]}
{"id": "C127", "title": "An item can be exchanged for another of the same field", "statement": "In a list of items that a structure with named fields accepts, exchange one item of a field for another item of the same field, under the same name or another of its names. The new list is accepted if and only if the new item can be read on its own, as a value of the field to which the functions of the field apply without error. Then the field has this value and all other fields have the same values as before. So whether an item is right never depends on the items beside it.", "quantifier": "for all named structures (without and_then functions of the structure itself), all accepted inputs over any number of attributes or in brackets, all plain fields, all pairs of items of the field and all places; and for all variants with named fields, for the items in the parentheses after their name, read alone or as the only item of an enum without and_then functions", "why_tests_cant": "an equivalence over all pairs of inputs that differ in one item; tests see single inputs.", "anchors": ["macros/types/field.rs:540-639", "macros/types/field.rs:875-1000", "core/parse_helpers.rs:606-621"]}
{"id": "C128", "title": "An item can be added for a field that has none", "statement": "To a list of items that a structure with named fields accepts, add one item of a field, in front of any other item or after a trailing comma, in any of the attributes. The new list is accepted if and only if the field had no item yet, under any of its names in any of the attributes, and the new item can be read on its own, as a value of the field to which the functions of the field apply without error. Then the field has this value and all other fields have the same values as before.", "quantifier": "for all named structures (without and_then functions of the structure itself), all accepted inputs over any number of attributes or in brackets, all plain fields, all items of the field and all places; and for all variants with named fields, for the items in the parentheses after their name, read alone or as the only item of an enum without and_then functions", "why_tests_cant": "an equivalence over all inputs and all items that can be added to them; tests see single inputs.", "anchors": ["macros/types/field.rs:540-639", "macros/types/field.rs:875-1000", "core/parse_helpers.rs:606-621"]}
{"id": "C129", "title": "Types of a single token read exactly that token", "statement": "A value of type u8 is read from exactly one token: a byte literal, or an integer literal below 256 without a sign; b'A' and 65 give the same value. A char is read from exactly one character literal, an Ident from any one identifier, a Literal from any one literal token, a Punct from any one punctuation character that does not begin a lifetime, a Group from any one group with all the tokens in it, and a TokenTree from any one token. Whenever the next token is one of these it is accepted with this value and nothing after it is consumed; otherwise there is an error. None of these types can be given as a bare name, and leaving one out is an error that names the field.", "quantifier": "for all inputs, all values and both parse modes", "why_tests_cant": "an equivalence over all token streams; tests see single literals.", "anchors": ["core/parse_meta.rs:300-312", "core/parse_meta.rs:348", "core/parse_meta.rs:947-956", "core/parse_meta.rs:1039-1082", "core/parse_meta.rs:1357-1362"]}
