{"claims": [
 {"property": "C01", "status": "proved", "theorems": ["Deluxe.c01_errors_exact", "Deluxe.c01_push_result_value", "Deluxe.c01_conversions"], "note": ""},
 {"property": "C02", "status": "proved", "theorems": ["Deluxe.c02_optional", "Deluxe.c02_attributes_optional"], "note": ""},
 {"property": "C03", "status": "proved", "theorems": ["Deluxe.c03_skip_stops_at_comma", "Deluxe.c03_skip_exact", "Deluxe.c03_skip_idempotent", "Deluxe.c03_skip_ignores_nested"], "note": ""},
 {"property": "C04", "status": "proved", "theorems": ["Deluxe.c04_eof", "Deluxe.c04_peek"], "note": ""},
 {"property": "C05", "status": "proved", "theorems": ["Deluxe.c05_equals", "Deluxe.c05_flag", "Deluxe.c05_paren", "Deluxe.c05_with_agrees", "Deluxe.c05_try_agrees"], "note": ""},
 {"property": "C06", "status": "partial", "theorems": ["Deluxe.c06_first_stream", "Deluxe.c06_no_stream_partial", "Deluxe.c06_later_streams_accepted"], "note": "Two clauses are false of the code and refuted: leftover tokens in later streams are accepted by parse_first itself; with no streams only the first message is relocated (c11_parse_empty_violated)."},
 {"property": "C07", "status": "proved", "theorems": ["Deluxe.c07_path_sound", "Deluxe.c07_path_roundtrip", "Deluxe.c07_path_rejects", "Deluxe.c07_key_injective"], "note": ""},
 {"property": "C08", "status": "proved", "theorems": ["Deluxe.c08_struct_loop", "Deluxe.c08_consumes_all", "Deluxe.c08_calls"], "note": "Callbacks are arbitrary stateful functions that do not give tokens back (a parse buffer cannot)."},
 {"property": "C09", "status": "proved", "theorems": ["Deluxe.c09_split_independent", "Deluxe.c09_result"], "note": "Stated for the named-field loop; the derived struct is covered by the theorems on derived structs."},
 {"property": "C10", "status": "proved", "theorems": ["Deluxe.c10_positional_loop", "Deluxe.c10_log_faithful"], "note": ""},
 {"property": "C11", "status": "partial", "theorems": ["Deluxe.c11_parse_empty_first_partial", "Deluxe.c11_parse_empty_violated"], "note": "The full statement is false of the code: only the first message is relocated. The negation is proved with a witness."},
 {"property": "C12", "status": "proved", "theorems": ["Deluxe.c12_join_segments", "Deluxe.c12_strip_segments", "Deluxe.c12_join_strip"], "note": ""},
 {"property": "C13", "status": "proved", "theorems": ["Deluxe.c13_path_matches_exact"], "note": "A leading `::` of the path is ignored, as in the code."},
 {"property": "C14", "status": "proved", "theorems": ["Deluxe.c14_smallstring_is_string"], "note": "Length sums are unbounded naturals, so the overflow panic of `checked_add` is out of scope."},
 {"property": "C15", "status": "proved", "theorems": ["Deluxe.c15_repr_irrelevant", "Deluxe.c15_borrow", "Deluxe.c15_printed"], "note": ""},
 {"property": "C16", "status": "proved", "theorems": ["Deluxe.c16_unknown"], "note": "Similarity is an arbitrary function into a linear order (natural numbers)."},
 {"property": "C17", "status": "proved", "theorems": ["Deluxe.c17_take_partition"], "note": ""},
 {"property": "C18", "status": "proved", "theorems": ["Deluxe.c18_ref_eq_take", "Deluxe.c18_struct", "Deluxe.c18_enum", "Deluxe.c18_extract_removes", "Deluxe.c18_container_differs"], "note": "c18_container_differs shows that the restriction to types without container field is needed."},
 {"property": "C19", "status": "proved", "theorems": ["Deluxe.c19_attr_tokens"], "note": "The callback is any function that keeps the number of streams."},
 {"property": "C20", "status": "proved", "theorems": ["Deluxe.c20_missing_and_flag", "Deluxe.c20_named", "Deluxe.c20_positional", "Deluxe.c20_error_kept"], "note": ""},
 {"property": "C21", "status": "proved", "theorems": ["Deluxe.c21_exact", "Deluxe.c21_never_panics", "Deluxe.c21_elements", "Deluxe.c21_all_errors", "Deluxe.c21_bracketed"], "note": ""},
 {"property": "C22", "status": "proved", "theorems": ["Deluxe.c22_exact", "Deluxe.c22_never_panics", "Deluxe.c22_components", "Deluxe.c22_parenthesized"], "note": ""},
 {"property": "C23", "status": "proved", "theorems": ["Deluxe.c23_sequence", "Deluxe.c23_bracketed", "Deluxe.c23_only_elements", "Deluxe.c23_malformed_drops_errors"], "note": "Element parsers are arbitrary. When something other than a comma follows an element, errors collected before are dropped (c23_malformed_drops_errors)."},
 {"property": "C24", "status": "proved", "theorems": ["Deluxe.c24_set", "Deluxe.c24_only_elements"], "note": ""},
 {"property": "C25", "status": "proved", "theorems": ["Deluxe.c25_map", "Deluxe.c25_only_entries"], "note": ""},
 {"property": "C26", "status": "proved", "theorems": ["Deluxe.c26_append_sequence", "Deluxe.c26_append_set", "Deluxe.c26_only_sequence", "Deluxe.c26_only_set"], "note": ""},
 {"property": "C27", "status": "proved", "theorems": ["Deluxe.c27_rest", "Deluxe.c27_only_entries", "Deluxe.c27_failing_value_hides"], "note": "A value error leaves the tokens of that value in place (c27_failing_value_hides)."},
 {"property": "C28", "status": "proved", "theorems": ["Deluxe.c28_named", "Deluxe.c28_no_value", "Deluxe.c28_elsewhere"], "note": ""},
 {"property": "C29", "status": "partial", "theorems": ["Deluxe.c29_spanned_partial", "Deluxe.c29_spanned_flat", "Deluxe.c29_wrapper_partial", "Deluxe.c29_missing_violated", "Deluxe.c29_inline_violated", "Deluxe.c29_named_violated"], "note": "Wrappers do not forward the hooks for omitted fields, inline parsing and named parsing, so the full statement is false for wrapped types overriding them; the negations are proved."},
 {"property": "C30", "status": "proved", "theorems": ["Deluxe.c30_struct", "Deluxe.c30_flattened", "Deluxe.c30_provided", "Deluxe.c30_named"], "note": "For named, tuple, unit and transparent structures. What the derive checks of a definition is the hypothesis StructDef.Accepted; the field types must not panic themselves (FieldsFine)."},
 {"property": "C31", "status": "proved", "theorems": ["Deluxe.c31_struct"], "note": "An accepted definition is described by `Accepted`; field types are arbitrary parsers that do not panic and do not give tokens back."},
 {"property": "C32", "status": "proved", "theorems": ["Deluxe.c32_order"], "note": "Flattened, append and rest fields are parsed by their own types, of which the same is required."},
 {"property": "C33", "status": "proved", "theorems": ["Deluxe.c33_duplicates", "Deluxe.c35_messages"], "note": ""},
 {"property": "C34", "status": "proved", "theorems": ["Deluxe.c34_unknown_reported", "Deluxe.c34_unknown_ignored"], "note": "That unknown items have no influence is stated for structures without flattened, append or rest fields."},
 {"property": "C35", "status": "proved", "theorems": ["Deluxe.c35_messages", "Deluxe.c35_nothing_hidden"], "note": ""},
 {"property": "C36", "status": "partial", "theorems": ["Deluxe.c36_missing_partial", "Deluxe.c36_renamed_violated"], "note": "False in the code for renamed fields, which are reported under their Rust name (proved); holds for all others."},
 {"property": "C37", "status": "proved", "theorems": ["Deluxe.c37_not_owned", "Deluxe.c37_unknown", "Deluxe.c37_value", "Deluxe.c37_struct", "Deluxe.c37_attributes", "Deluxe.c37_enum"], "note": "For structures of all shapes, transparent or not, read in any way, and for the variants of enums."},
 {"property": "C38", "status": "proved", "theorems": ["Deluxe.c38_transforms"], "note": ""},
 {"property": "C39", "status": "proved", "theorems": ["Deluxe.c39_flattened_value", "Deluxe.c39_names"], "note": ""},
 {"property": "C40", "status": "partial", "theorems": ["Deluxe.c40_reads_partial", "Deluxe.c40_unprefixed_partial", "Deluxe.c40_stripped_partial", "Deluxe.c40_prefixed_keys", "Deluxe.c40_flatten_prefix_partial", "Deluxe.c40_nested_violated"], "note": "False in the code for a flattened structure without prefix inside one with a prefix (proved): the inner one advertises the prefixed names and then reads unprefixed ones. What holds is one level of prefix: c40_reads_partial, for a flattened structure without flat fields of its own, under any outer prefix, is about what the parser does; c40_prefixed_keys and c40_flatten_prefix_partial are about which keys belong to which field only, and a parser that does not ask for the prefix did not contradict them."},
 {"property": "C41", "status": "proved", "theorems": ["Deluxe.c41_positions", "Deluxe.c41_messages", "Deluxe.c41_all_given", "Deluxe.c41_too_few", "Deluxe.c41_parenthesized", "Deluxe.c41_none_parsed"], "note": ""},
 {"property": "C42", "status": "proved", "theorems": ["Deluxe.c42_never_missing", "Deluxe.c42_omitted"], "note": ""},
 {"property": "C43", "status": "proved", "theorems": ["Deluxe.c43_one", "Deluxe.c43_one_ok", "Deluxe.c43_two", "Deluxe.c43_failing_value", "Deluxe.c43_value"], "note": "c43_value is about any input, also malformed. Transparent variants whose field has a failing and_then are excluded (EnumDef.Infallible), see C44."},
 {"property": "C44", "status": "partial", "theorems": ["Deluxe.c44_enum_partial", "Deluxe.c44_traits_partial", "Deluxe.c44_and_then_violated"], "note": "False in the code: a failing and_then on the field of a transparent variant ends in unreachable!() (proved). Without such fields the claim holds for every input."},
 {"property": "C45", "status": "partial", "theorems": ["Deluxe.c45_applies", "Deluxe.c45_unique", "Deluxe.c45_keyless", "Deluxe.c45_keyless_fails", "Deluxe.c45_default", "Deluxe.c45_ambiguous_violated"], "note": "Selection is proved, uniqueness is false: the definition check compares whole keys, so a variant whose required fields include those of another is accepted and shadowed (c45_ambiguous_violated)."},
 {"property": "C46", "status": "partial", "theorems": ["Deluxe.c46_struct", "Deluxe.c46_accepted", "Deluxe.c46_one_field", "Deluxe.c46_reported", "Deluxe.c46_variant_violated"], "note": "Holds for structures, with the exact condition of acceptance. False in the code for variants, whose field names are not compared (proved)."},
 {"property": "C47", "status": "partial", "theorems": ["Deluxe.c47_field", "Deluxe.c47_messages", "Deluxe.c47_reported", "Deluxe.c47_accepted_partial", "Deluxe.c47_after_default_violated", "Deluxe.c47_skip_violated"], "note": "Exact condition of acceptance and exact messages for the pairs that the code checks. Not checked by the code, and proved to be accepted: skip together with flatten or container, and attributes after `default = ..`, which are taken for the expression."},
 {"property": "C48", "status": "proved", "theorems": ["Deluxe.c46_struct", "Deluxe.c46_accepted", "Deluxe.c48_variant", "Deluxe.c48_accepted"], "note": "c46_struct and c48_variant are the exact conditions of acceptance; the other two need no assumption on the attributes."},
 {"property": "C49", "status": "proved", "theorems": ["Deluxe.c49_only_one", "Deluxe.c49_all_or_none", "Deluxe.c49_own_prefix_violated"], "note": ""},
 {"property": "C50", "status": "proved", "theorems": ["Deluxe.c50_or", "Deluxe.c50_map", "Deluxe.c50_unwrap", "Deluxe.c50_parse_named_item"], "note": ""},
 {"property": "C51", "status": "partial", "theorems": ["Deluxe.c51_single_partial", "Deluxe.c51_stops_at_separator", "Deluxe.c51_violated"], "note": "False in the code for two or more elements: reading stops after the first separator (proved). What holds is the case of at most one element per stream."},
 {"property": "C52", "status": "partial", "theorems": ["Deluxe.c52_token_stream", "Deluxe.c52_nothing", "Deluxe.c52_flag_and_missing", "Deluxe.c52_flat_partial", "Deluxe.c52_flat_violated"], "note": "The flattened positional case is false in the code when a top-level comma occurs (proved)."},
 {"property": "C53", "status": "partial", "theorems": ["Deluxe.c53_top_partial", "Deluxe.c53_needs_group", "Deluxe.c53_content_violated", "Deluxe.c53_inline_violated"], "note": "Below the top level any parenthesised content is accepted and only noted in the unexpected cell (proved)."},
 {"property": "C54", "status": "partial", "theorems": ["Deluxe.c54_required", "Deluxe.c54_listed_partial", "Deluxe.c54_disallowed", "Deluxe.c54_alias_violated"], "note": "Aliases of variants that are not flattened are not listed (proved); all else holds."},
 {"property": "C55", "status": "partial", "theorems": ["Deluxe.c55_provided", "Deluxe.c55_flat", "Deluxe.c55_loops", "Deluxe.c55_punctuated_partial", "Deluxe.c55_punctuated_diverges"], "note": "Holds for every provided implementation except Punctuated, whose loop never ends when the element parser succeeds without consuming (proved); for Punctuated it holds when the element parser consumes a token on success. Syn node parsers are assumed to move forward."},
 {"property": "C56", "status": "partial", "theorems": ["Deluxe.c56_every_type_partial", "Deluxe.c56_same_outcome", "Deluxe.c56_same_outcome_named", "Deluxe.c56_comma_left", "Deluxe.c56_variant", "Deluxe.c56_tokenTree", "Deluxe.c56_punct", "Deluxe.c56_tokenTree_violated"], "note": "Proved for every provided and derived type in any combination (syn nodes under the same assumption on their parser), except TokenTree and Punct: for `key = ,` they take the comma itself for the value. They look no further (c56_tokenTree, c56_punct), but SpannedValue around them then does (c56_tokenTree_violated)."},
 {"property": "C57", "status": "partial", "theorems": ["Deluxe.c57_from_str", "Deluxe.c57_from_str_error", "Deluxe.c57_quoted", "Deluxe.c57_quoted_errors", "Deluxe.c57_quoted_other", "Deluxe.c57_maybe_quoted_partial", "Deluxe.c57_maybe_quoted_violated", "Deluxe.c57_maybe_quoted_list_violated", "Deluxe.c57_optional_partial", "Deluxe.c57_optional_flag_violated", "Deluxe.c57_collection", "Deluxe.c57_collection_violated", "Deluxe.c57_append_partial", "Deluxe.c57_append_flag_violated", "Deluxe.c57_map_partial", "Deluxe.c57_map_violated", "Deluxe.c57_never_panics"], "note": "from_str and quoted are proved as claimed. Three parts are false in the code (proved): maybe_quoted does not accept the plain form of types that are string literals, nor lists written name(..); adapters take an item given as a flag, or a missing collection or map, for None or empty where the plain types report an error; the adapters ignore the flag function of the adapted module. All else is proved."},
 {"property": "C58", "status": "proved", "theorems": ["Deluxe.c58_one_list", "Deluxe.c58_kinds", "Deluxe.c58_same_list", "Deluxe.c58_unsupported", "Deluxe.c58_errors", "Deluxe.c58_infer_violated"], "note": "c58_infer_violated: Expr::Infer has attributes that are parsed, but extraction from it is refused as if it had none."},
 {"property": "C59", "status": "proved", "theorems": ["Deluxe.c59_has_paths", "Deluxe.c59_remove_paths", "Deluxe.c59_disallow_paths"], "note": ""},
 {"property": "C60", "status": "proved", "theorems": ["Deluxe.c60_never_panics", "Deluxe.c60_panics", "Deluxe.c60_errors_kept", "Deluxe.c60_leftovers_hide_errors"], "note": "A callback that fails and leaves tokens unread has its messages replaced (c60_leftovers_hide_errors)."},
 {"property": "C61", "status": "partial", "theorems": ["Deluxe.c61_start_partial", "Deluxe.c61_end_violated"], "note": "False in the code where spans can be joined: the span reaches to the token after the value (proved). What holds is the bare name and the case without joining."},
 {"property": "C62", "status": "proved", "theorems": ["Deluxe.c62_bool", "Deluxe.c62_string", "Deluxe.c62_int", "Deluxe.c62_bare_and_missing"], "note": ""},
 {"property": "C63", "status": "partial", "theorems": ["Deluxe.c63_beside_variant", "Deluxe.c63_no_variant", "Deluxe.c63_default_violated"], "note": "False in the code for an enum with a default: without a variant name every input is the default (c63_default_violated)."},
 {"property": "C64", "status": "partial", "theorems": ["Deluxe.c64_named_partial", "Deluxe.c64_flattened_violated"], "note": "False in the code when a flattened variant is selected: it checks all keys (proved). Holds when a variant is named."},
 {"property": "C65", "status": "partial", "theorems": ["Deluxe.c65_outcome", "Deluxe.c65_struct", "Deluxe.c65_enum", "Deluxe.c65_missing_partial", "Deluxe.c65_struct_never_panics", "Deluxe.c65_enum_never_panics_partial", "Deluxe.c65_forms"], "note": "c65_struct is about lists and bare attributes whose tokens are all read; tokens that are left over make the parse fail and hide the collected errors (C60). Renamed fields are reported under the Rust name, as in C36; enums can panic as in C44."},
 {"property": "C66", "status": "proved", "theorems": ["Deluxe.c66_takes_all", "Deluxe.c66_is_last", "Deluxe.c66_parenthesised", "Deluxe.c66_field"], "note": ""},
 {"property": "C67", "status": "partial", "theorems": ["Deluxe.c67_never_panics_partial", "Deluxe.c67_variant", "Deluxe.c67_enum", "Deluxe.c67_enum_panics", "Deluxe.c67_variant_name_violated"], "note": "Proved for fields and structures. False in the code for enums (c67_variant_name_violated): a variant whose name in snake case is no identifier, such as _1 or __, makes the derive panic unless it is renamed or flattened; c67_variant says exactly which. Assumes that the parsers of syn that are called for paths, types and lifetimes do not panic (SynLib.Good)."},
 {"property": "C68", "status": "proved", "theorems": ["Deluxe.c68_enum", "Deluxe.c68_accepted", "Deluxe.c68_distinct"], "note": "c68_distinct connects this with the generated code: the hypothesis DistinctKeys of C45 holds."},
 {"property": "C69", "status": "partial", "theorems": ["Deluxe.c69_struct_attr", "Deluxe.c69_struct_meta", "Deluxe.c69_struct_never_panics", "Deluxe.c69_enum_never_panics_partial", "Deluxe.c69_transparent_violated"], "note": "Proved for structures. False in the code for enums with a transparent variant whose field is the rest (c69_transparent_violated) or has a failing and_then (c44_and_then_violated); proved for all others."},
 {"property": "C70", "status": "partial", "theorems": ["Deluxe.c70_accepted_partial", "Deluxe.c70_rest_violated", "Deluxe.c70_parse", "Deluxe.c70_inline", "Deluxe.c70_flag", "Deluxe.c70_named", "Deluxe.c70_attr", "Deluxe.c70_missing_partial", "Deluxe.c70_missing_violated", "Deluxe.c70_named_functions", "Deluxe.c70_message_violated"], "note": "False for a field with rest: transparent is accepted and ignored (c70_rest_violated). False for items that are left out: an Option may be missing, a transparent structure around it may not (c70_missing_violated). False for the message if the structure has and_then, whose functions run before the check for leftover tokens (c70_message_violated); the outcome is otherwise as claimed also then (c70_named_functions). Field level and_then is excluded because the generated code does not compile. Wrapped.unique: the values are determined."},
 {"property": "C71", "status": "partial", "theorems": ["Deluxe.c71_flat_named", "Deluxe.c71_flat_unnamed_partial", "Deluxe.c71_rest", "Deluxe.c71_append", "Deluxe.c71_only_asked", "Deluxe.c71_index_violated"], "note": "False for the index in transparent tuple structures: a local variable of the generated code hides it (c71_index_violated)."},
 {"property": "C72", "status": "partial", "theorems": ["Deluxe.c72_object", "Deluxe.c72_given", "Deluxe.c72_clone", "Deluxe.c72_has_attributes", "Deluxe.c72_lifetime", "Deluxe.c72_new_lifetime", "Deluxe.c72_generic", "Deluxe.c72_params", "Deluxe.c72_parse_lifetime", "Deluxe.c72_container_captures_nothing", "Deluxe.c72_capture_partial", "Deluxe.c72_capture_violated", "Deluxe.c72_distinct_partial", "Deluxe.c72_const_violated", "Deluxe.c72_field_partial", "Deluxe.c72_field_violated"], "note": "Object type, lifetime and bounds are proved. False in the code (proved): without a container field the new parameter T hides a type called T that the definition uses, is declared again beside a constant parameter T, and a field with container = false still fixes the object type."},
 {"property": "C73", "status": "partial", "theorems": ["Deluxe.c73_accepted", "Deluxe.c73_crate_missing", "Deluxe.c73_rejected", "Deluxe.c73_no_definition", "Deluxe.c73_never_panics_partial", "Deluxe.c73_silent", "Deluxe.c73_first_name", "Deluxe.c73_crate_given", "Deluxe.c73_struct_end_to_end", "Deluxe.c73_traits", "Deluxe.c73_generate_violated", "Deluxe.c73_name_violated", "Deluxe.c73_panics_violated"], "note": "Proved for structures, and for enums except that the macro panics instead of reporting an error if a variant is called like _1 (see C67) or is transparent with a rest field only (c73_panics_violated). The crate lookup, the item parser and the parsers of paths and types are parameters (SynLib.Good for never_panics). Derived enums can panic when parsing, see C44 and C69."},
 {"property": "C74", "status": "partial", "theorems": ["Deluxe.c74_announced", "Deluxe.c74_parsed", "Deluxe.c74_enum_violated", "Deluxe.c74_tuple_violated"], "note": "Proved for structures with named fields. False in the code (proved) for enums, which never announce that they accept all keys, and for structures flattened into tuple structures, which check the keys in any case."},
 {"property": "C75", "status": "partial", "theorems": ["Deluxe.c75_unclaimed_partial", "Deluxe.c75_own_name_violated", "Deluxe.c75_flattened_violated", "Deluxe.c75_prefix_violated"], "note": "Proved for structures that are not flattened, except for a key with the name of the rest field itself, which is dropped without a message (c75_own_name_violated). False in the code when the structure is flattened: the rest also gets the keys of the parent (c75_flattened_violated), and with a prefix its own prefixed keys (c75_prefix_violated)."},
 {"property": "C76", "status": "partial", "theorems": ["Deluxe.c76_forms_partial", "Deluxe.c76_paren", "Deluxe.c76_delimited", "Deluxe.c76_struct_violated", "Deluxe.c76_sequence_violated"], "note": "Proved for `k = v` and `k`, and for `k(..)` where the type has the default inline form. False in the code for derived structures and sequences, whose form `k(..)` is an error in an optional field (proved for all of them)."},
 {"property": "C77", "status": "partial", "theorems": ["Deluxe.c77_names", "Deluxe.c77_beside_flattened", "Deluxe.c77_beside_rest", "Deluxe.c43_two", "Deluxe.c54_disallowed", "Deluxe.c77_beside_named_violated", "Deluxe.c77_skipped_violated"], "note": "Proved beside flattened variants, for two named variants, and in enums that do not check their keys. False in the code for keys of flattened variants beside a named one in an enum that checks its keys: they are never reported (c77_beside_named_violated, for all such inputs). Fields of skipped flattened variants are announced (c77_skipped_violated)."},
 {"property": "C78", "status": "partial", "theorems": ["Deluxe.c78_same_partial", "Deluxe.c78_transparent", "Deluxe.c78_prefix_violated"], "note": "Proved for enums that are not flattened with a prefix, for all shapes. False in the code with a prefix: the fields inside the parentheses of a variant then need the prefix too (c78_prefix_violated). Transparent variants are proved without and_then on the field, with which the generated code does not compile (see C44)."},
 {"property": "C79", "status": "partial", "theorems": ["Deluxe.c79_sequence", "Deluxe.c79_set", "Deluxe.c79_any_number", "Deluxe.c26_append_sequence", "Deluxe.c26_append_set", "Deluxe.c79_default_violated"], "note": "Proved except for the default: it is accepted together with append but never used (c79_default_violated, for all such fields)."},
 {"property": "C80", "status": "proved", "theorems": ["Deluxe.c80_struct", "Deluxe.c80_struct_flat", "Deluxe.c80_enum", "Deluxe.c80_errors_kept", "Deluxe.c80_default", "Deluxe.c80_struct_attr", "Deluxe.c80_enum_attr", "Deluxe.c80_struct_written", "Deluxe.c80_enum_written"], "note": "For all structures and enums, all functions and all ways to write the value. The default of an omitted value is used as it is, the functions are not run on it."},
 {"property": "C81", "status": "partial", "theorems": ["Deluxe.c81_field", "Deluxe.c81_struct_partial", "Deluxe.c81_excluded_violated", "Deluxe.c81_container_violated", "Deluxe.c81_transparent_violated", "Deluxe.c81_variant", "Deluxe.c81_enum_partial", "Deluxe.c81_variant_violated"], "note": "One direction holds: an accepted definition is accepted without the attributes that are switched off, and parsed in the same way. The other does not: attributes that exclude each other, two `container = false` and `transparent = false` on a structure that cannot be transparent are rejected."},
 {"property": "C82", "status": "proved", "theorems": ["Deluxe.c82_inline", "Deluxe.c82_prefix", "Deluxe.c82_shared_violated"], "note": "An equivalence of the two generated parsers on inputs of keys with values. The conditions on the structures are in the statement; c82_shared_violated: with a key in common the definition is accepted, and one item is given to both fields. The other flat fields are assumed to give the same result on a fork of the input as on the input itself, which holds for the types of the library. c40_nested_violated shows why the inner structure of the form with a prefix has no flattened field."},
 {"property": "C83", "status": "partial", "theorems": ["Deluxe.c83_collections", "Deluxe.c83_struct", "Deluxe.c83_enum", "Deluxe.c83_transparent", "Deluxe.c83_struct_unknown", "Deluxe.c83_enum_unknown", "Deluxe.c83_enum_unknown_none", "Deluxe.c83_wrapped_violated", "Deluxe.c83_transparent_same", "Deluxe.c83_transparent_violated"], "note": "Proved for the types themselves. It does not hold if they are boxed or optional: `key(items)` is then an error (c83_wrapped_violated for sequences; c76_struct_violated for all structures, c76_sequence_violated for all sequences). For transparent structures the two forms succeed in the same cases with the same value (c83_transparent); they also give the same messages if there is no and_then (c83_transparent_same), and may not otherwise (c83_transparent_violated)."},
 {"property": "C84", "status": "partial", "theorems": ["Deluxe.c84_inline", "Deluxe.c84_parenthesized", "Deluxe.c84_attributes_violated", "Deluxe.c84_empty_violated", "Deluxe.c84_flag_violated"], "note": "Proved for the items of one attribute or one pair of parentheses, with equal values and equal remaining tokens. False for several attributes of one kind, for a flattened structure without parsed fields and for the name without items; each is shown on a concrete definition. The flattened field has neither default nor functions, and neither structure has a default of its own. Messages are not compared: see C85."},
 {"property": "C85", "status": "partial", "theorems": ["Deluxe.c85_missing", "Deluxe.c85_number_partial", "Deluxe.c85_container_violated", "Deluxe.c85_flattened_violated", "Deluxe.c85_before_flattened_violated"], "note": "Proved without flattened fields and without container fields before the missing one (skipped fields are allowed). False otherwise: container fields are not counted, fields before a missing one are counted twice if there is a flattened field, and a flattened field that is missing as well does not count the missing fields before it."},
 {"property": "C86", "status": "partial", "theorems": ["Deluxe.c86_literal", "Deluxe.c86_punct", "Deluxe.c86_group", "Deluxe.c86_tokenTree_partial", "Deluxe.c86_ident_partial", "Deluxe.c86_tokenStream_partial", "Deluxe.c86_raw_violated", "Deluxe.c86_raw_ident_violated", "Deluxe.c86_keyword_violated", "Deluxe.c86_tokenStream_violated", "Deluxe.c86_tokenStream_empty_violated", "Deluxe.c86_hidden_violated"], "note": "Proved for Literal, Punct and Group in all forms of an item. False for the others: raw identifiers panic, Ident refuses keywords, TokenStream does not stop at the comma and is required. Proved for them where there is no raw identifier, no keyword, no comma."},
 {"property": "C87", "status": "partial", "theorems": ["Deluxe.c87_fields", "Deluxe.c87_key", "Deluxe.c87_key_violated", "Deluxe.c87_literals_violated", "Deluxe.c87_string_violated", "Deluxe.c87_keyword_violated"], "note": "Proved: the structure is parsed exactly if the rest field and the structure without it are, with the same values (fields that read the input themselves are asked to give the same on a fork). False is that the rest field ignores items of other fields: it reads their keys with its own key type, so that one unreadable key fails the whole structure (c87_key_violated). With literals as keys (String, char, integers) no non-empty input at all is parsed (c87_literals_violated), and with syn::Path no input with a key that is a keyword, such as that of a field r#type (c87_keyword_violated; syn is external, its refusal of keywords is a parameter)."},
 {"property": "C88", "status": "proved", "theorems": ["Deluxe.c88_left_out", "Deluxe.c88_bare", "Deluxe.c88_bare_spanned", "Deluxe.c88_bare_syn"], "note": "For all library types and with modules, with the value or the message. Derived types have their own theorems (C31, C36, C43, C44)."},
 {"property": "C89", "status": "partial", "theorems": ["Deluxe.c89_same_partial", "Deluxe.c89_dropped_violated", "Deluxe.c89_reported"], "note": "Holds if no flattened variant takes any key (c89_same_partial, with any and_then that accepts the value). False otherwise: in attributes unknown keys beside the name of another variant are then silently dropped (c89_dropped_violated), while as a value they are reported (c89_reported)."},
 {"property": "C90", "status": "proved", "theorems": ["Deluxe.c90_same", "Deluxe.c90_path"], "note": "For all implementations of ToKeyString in the crate, nested to any depth, against a table of their texts. The trait is modelled as what fmt_key_string writes, string by string, and what with_key_string passes on."},
 {"property": "C91", "status": "partial", "theorems": ["Deluxe.c91_accepts_partial", "Deluxe.c91_smallString_violated"], "note": "The same inputs are accepted, with the same errors. The value differs for every string literal: SmallString keeps the source text with quotes, escapes and prefix (c91_smallString_violated)."},
 {"property": "C92", "status": "partial", "theorems": ["Deluxe.c92_struct", "Deluxe.c92_enum_violated"], "note": "Holds for structures. For enums the derive reports that the container field needs a default (c92_enum_violated)."},
 {"property": "C93", "status": "partial", "theorems": ["Deluxe.c93_struct", "Deluxe.c93_enum", "Deluxe.c93_derived", "Deluxe.c93_derived_enum", "Deluxe.c93_held", "Deluxe.c93_mut_violated"], "note": "Holds for values, options, references and optional references, and for all types in the ExtractAttributes derive. In the ParseAttributes derive mutable references compile, but container_from is unimplemented!() for them (c93_mut_violated). Container fields with transforms hold the transformed object (c37_attributes)."},
 {"property": "C94", "status": "proved", "theorems": ["Deluxe.c94_field_item", "Deluxe.c94_struct_item", "Deluxe.c94_variant_item", "Deluxe.c94_enum_item", "Deluxe.c94_field", "Deluxe.c94_struct", "Deluxe.c94_variant", "Deluxe.c94_enum"], "note": "`default = ..` is written last in its list, since it swallows the rest of it (C66). The parsers of paths, types and lifetimes (syn) and the conversion to snake case (heck) are parameters. When structures, variants and enums are accepted is C46, C48 and C68."},
 {"property": "C95", "status": "proved", "theorems": ["Deluxe.c95_field", "Deluxe.c95_struct", "Deluxe.c95_variant", "Deluxe.c95_enum", "Deluxe.c95_flatten", "Deluxe.c95_container", "Deluxe.c95_transparent"], "note": "Messages are stated for attributes that are allowed at their place (`rename` and `alias` on a tuple field leave their value unread, which hides the rest of the list); that the definition is refused holds without this. A variant whose name has no snake case form panics instead (C67). For enums `allow_unknown_fields` is never suggested, since it is missing from the list of names (macros/types/enum.rs:22-25)."},
 {"property": "C96", "status": "partial", "theorems": ["Deluxe.c96_struct", "Deluxe.c96_enum", "Deluxe.c96_transparent_violated", "Deluxe.c96_variant_violated"], "note": "Exact conditions for structures and enums; the two combinations for which it fails are accepted by all derives (c96_transparent_violated, c96_variant_violated). The shape of a definition and its fields agree, as syn guarantees. Enums for which the derive panics (C67) generate no code."},
 {"property": "C97", "status": "partial", "theorems": ["Deluxe.c97_struct", "Deluxe.c97_enum", "Deluxe.c97_flatten_violated", "Deluxe.c97_prefix_violated"], "note": "Exact conditions for structures and enums; definitions that do not meet them are accepted by all derives (c97_flatten_violated, c97_prefix_violated). Only calls without arguments on `<_ as ..>` and the cells of the name lists are checked; the types of the fields are not known to the model."},
 {"property": "C98", "status": "partial", "theorems": ["Deluxe.c98_struct_partial", "Deluxe.c98_struct", "Deluxe.c98_named", "Deluxe.c98_unit", "Deluxe.c98_enum", "Deluxe.c98_nested", "Deluxe.c98_nested_enum", "Deluxe.c98_missing", "Deluxe.c98_trailing_comma_violated", "Deluxe.c98_any_key_violated"], "note": "Holds for structures with named fields and for enums without flattened variant that takes any key; for the others everything that deluxe::parse accepts is accepted as an attribute (c98_struct_partial), but not conversely: deluxe::parse refuses a comma after the last field of a tuple structure and a lone comma for a unit structure (c98_trailing_comma_violated; c98_struct gives the exact difference), and unknown keys beside the name of a variant (c98_any_key_violated, compare C89). The types of the fields are asked not to look at the names and places passed for messages; derived types meet this (c98_nested)."},
 {"property": "C99", "status": "partial", "theorems": ["Deluxe.c99_item_partial", "Deluxe.c99_flat_partial", "Deluxe.c99_attr_partial", "Deluxe.c99_accepted_partial", "Deluxe.c99_definition_partial", "Deluxe.c99_flatten_violated", "Deluxe.c99_names_violated"], "note": "Proved for skipped variants that are not flattened, in every way to parse the enum, from the definition as it is written. Two parts are false in the code: the field names of a skipped flattened variant still count as known (c99_flatten_violated), and the names of skipped variants must still differ from those of the others (c99_names_violated)."},
 {"property": "C100", "status": "partial", "theorems": ["Deluxe.c100_every_type", "Deluxe.c100_parse2", "Deluxe.c100_parse_attributes", "Deluxe.c100_extract_attributes", "Deluxe.c100_struct", "Deluxe.c100_enum", "Deluxe.c100_item", "Deluxe.c100_call_site_violated"], "note": "Proved with the call site of the macro, and joins of spans, among the allowed places. The call site cannot be left out: the end of the list and a wrong delimiter of an attribute are reported there (c100_call_site_violated). Parsers from syn and and_then functions are asked to report inside what they are given. `c100_item` is for items that are followed by a comma and whose type does not look past it (C56). An object whose attributes cannot be taken (C58) is reported where its crate says."},
 {"property": "C101", "status": "partial", "theorems": ["Deluxe.c101_flattened", "Deluxe.c101_messages", "Deluxe.c101_item", "Deluxe.c101_attributes", "Deluxe.c101_item_flat", "Deluxe.c101_attributes_flat", "Deluxe.c101_drains", "Deluxe.c101_drains_struct", "Deluxe.c101_tidy_struct", "Deluxe.c101_rest", "Deluxe.c101_definition", "Deluxe.c101_meaning", "Deluxe.c101_meaning_meta", "Deluxe.c101_one_owner", "Deluxe.c101_suggestion_violated"], "note": "`c101_definition`, `c101_meaning`, `c101_meaning_meta`: the derive accepts the reordered declaration, with the same fields. `c101_flattened` covers all structures that are not transparent; so do `c101_item_flat` and `c101_attributes_flat` for an item and for attributes, where the remaining input is the same if both succeed and flat fields are asked to read everything when they succeed (`c101_drains`, `c101_drains_struct`, `c101_tidy_struct`: those that exist do); without flat fields the remaining input is the same in any case (`c101_item`, `c101_attributes`). Messages are the same up to their order and the suggested name: among equally similar names the first declared one is suggested (c101_suggestion_violated). `NamesOnly` asks rest parsers to look only at which names are taken, which `c101_rest` proves for the maps of the crate."},
 {"property": "C102", "status": "partial", "theorems": ["Deluxe.c102_flattened", "Deluxe.c102_item_partial", "Deluxe.c102_attributes_partial", "Deluxe.c102_item_flat_partial", "Deluxe.c102_attributes_flat_partial", "Deluxe.c102_parsed", "Deluxe.c102_rest_violated"], "note": "`c102_flattened`: flattened structures, with any fields. The item and attribute theorems (with flat fields: c102_item_flat_partial, c102_attributes_flat_partial) leave out skipped fields that are marked as `rest` or `flatten` besides: those make the structure accept every key (c102_rest_violated). `Unparsed` asks that the transformations of the left out field succeed on its default."},
 {"property": "C103", "status": "partial", "theorems": ["Deluxe.c103_names", "Deluxe.c103_struct", "Deluxe.c103_enum", "Deluxe.c103_program", "Deluxe.c103_generic_violated", "Deluxe.c103_nested_violated"], "note": "Proved for programs in which every cell has one initializer, which `c103_program` shows for all programs of structures without type parameters. False for generic types that flatten a parameter: a static cell in a generic function exists once, so the first instance decides the names of all (c103_generic_violated), and a type that flattens another instance of itself hangs (c103_nested_violated). One thread."},
 {"property": "C104", "status": "partial", "theorems": ["Deluxe.c104_struct_partial", "Deluxe.c104_struct_reads", "Deluxe.c104_enum_partial", "Deluxe.c104_enum_reads", "Deluxe.c104_forwards", "Deluxe.c104_flatten_type", "Deluxe.c104_flatten_with_violated", "Deluxe.c104_skip_violated", "Deluxe.c104_transparent_map_violated", "Deluxe.c104_variant_with_violated"], "note": "Proved for all fields but those for which it is false: flattened fields that are skipped or have with, map or and_then still need the trait of their own type (c104_flatten_type, c104_flatten_with_violated, c104_skip_violated); transparent structures ignore that map and and_then take another type (c104_transparent_map_violated); transparent variants ignore with (c104_variant_with_violated). That every field is read holds without exception for all that is not transparent."},
 {"property": "C105", "status": "partial", "theorems": ["Deluxe.c105_flattened", "Deluxe.c105_item", "Deluxe.c105_attributes", "Deluxe.c105_definition", "Deluxe.c105_accepted_partial", "Deluxe.c105_container_violated", "Deluxe.c105_listed_violated"], "note": "Parsing is proved without exception. That the rearranged definition is accepted is proved for definitions where at most one container says what lifetime or type it has; it is false otherwise, because only the first container may (c105_container_violated). Messages that list names do so in the order of the definition (c105_listed_violated)."},
 {"property": "C106", "status": "partial", "theorems": ["Deluxe.c106_well_formed", "Deluxe.c106_once", "Deluxe.c106_output", "Deluxe.c106_flag", "Deluxe.c106_flag_iff", "Deluxe.c106_missing", "Deluxe.c106_missing_iff", "Deluxe.c106_accepts_all", "Deluxe.c106_accepts_all_iff", "Deluxe.c106_enum_fns", "Deluxe.c106_enum_left", "Deluxe.c106_names_partial", "Deluxe.c106_transparent_names", "Deluxe.c106_redeclared_partial", "Deluxe.c106_names_violated", "Deluxe.c106_redeclared_violated"], "note": "That the implementations are complete, without repetition and fall back to the trait is proved without exception. The names are free in all but transparent structures that ask for further traits; there the functions take exactly S, I, P and the lifetime s (c106_transparent_names), so struct W(S) captures the type of its field and struct W<S>(S) is declared twice (c106_names_violated, c106_redeclared_violated)."},
 {"property": "C107", "status": "partial", "theorems": ["Deluxe.c107_field", "Deluxe.c107_struct", "Deluxe.c107_variant", "Deluxe.c107_enum", "Deluxe.c107_flatten", "Deluxe.c107_container", "Deluxe.c107_transparent", "Deluxe.c107_skip_violated"], "note": "Proved for every attribute that may be given once and for the options, with one exception that is false in the code: the skip of a field, given twice, is refused but reported as a duplicate of container (c107_skip_violated). As in C95 the messages are given for attributes that are allowed where they are written."},
 {"property": "C108", "status": "proved", "theorems": ["Deluxe.c108_key", "Deluxe.c108_key_stable", "Deluxe.c108_inputs", "Deluxe.c108_inputs_stable"], "note": "Joining is a parameter; that it covers both spans, and that spans in a row lie between the first and the last, are hypotheses about the compiler."},
 {"property": "C109", "status": "proved", "theorems": ["Deluxe.c109_every_type", "Deluxe.c109_text_parse", "Deluxe.c109_text_named", "Deluxe.c109_text_inline", "Deluxe.c109_text_absent", "Deluxe.c109_accepted", "Deluxe.c109_plain_value", "Deluxe.c109_struct_target", "Deluxe.c109_enum_target", "Deluxe.c109_parse_attributes", "Deluxe.c109_extract_attributes", "Deluxe.c109_text_attributes", "Deluxe.c109_flat", "Deluxe.c109_transparent"], "note": "Parsers of syn nodes, user functions and the lexer of quoted values are parameters, and that they do not look at locations is a hypothesis. The keys of sets and maps carry no location in the model."},
 {"property": "C110", "status": "proved", "theorems": ["Deluxe.c110_text_tells", "Deluxe.c110_token_quoted", "Deluxe.c110_name_quoted", "Deluxe.c110_quoted_list", "Deluxe.c110_numbers", "Deluxe.c110_reloc", "Deluxe.c110_needs_names_violated"], "note": "The printing of tokens is a parameter. Messages of syn and of the user are not included."},
 {"property": "C111", "status": "partial", "theorems": ["Deluxe.c111_written_partial", "Deluxe.c111_attribute", "Deluxe.c111_struct", "Deluxe.c111_tuple_struct", "Deluxe.c111_unit_struct", "Deluxe.c111_transparent", "Deluxe.c111_enum", "Deluxe.c111_variant", "Deluxe.c111_transparent_variant", "Deluxe.c111_bool", "Deluxe.c111_char", "Deluxe.c111_string", "Deluxe.c111_int", "Deluxe.c111_u8", "Deluxe.c111_ident", "Deluxe.c111_literal", "Deluxe.c111_group", "Deluxe.c111_tokenStream", "Deluxe.c111_unit", "Deluxe.c111_flag", "Deluxe.c111_option", "Deluxe.c111_wrapper", "Deluxe.c111_spanned", "Deluxe.c111_convert", "Deluxe.c111_seq", "Deluxe.c111_array", "Deluxe.c111_set", "Deluxe.c111_tuple", "Deluxe.c111_map", "Deluxe.c111_key_string", "Deluxe.c111_key_char", "Deluxe.c111_key_ident", "Deluxe.c111_key_bool", "Deluxe.c111_key_int", "Deluxe.c111_none_by_name", "Deluxe.c111_some_none_false", "Deluxe.c111_tokens_read", "Deluxe.c111_flat_struct", "Deluxe.c111_among", "Deluxe.c111_flatten", "Deluxe.c111_append", "Deluxe.c111_append_set", "Deluxe.c111_rest", "Deluxe.c111_enum_among", "Deluxe.c111_flat_variant", "Deluxe.c111_items", "Deluxe.c111_flat_tuple_struct", "Deluxe.c111_one_item", "Deluxe.c111_flattened_items", "Deluxe.c111_flattened_seq", "Deluxe.c111_flattened_array", "Deluxe.c111_flattened_tuple"], "note": "Flattened, append and rest fields of structures with named fields are included if no key belongs to two fields, and flattened variants if their keys select them. Flattened fields of tuple structures are included if the structure has no default of its own. A flattened set of a tuple structure is not treated. The values that cannot be written are named and shown to be out of reach."},
 {"property": "C112", "status": "partial", "theorems": ["Deluxe.c112_top_partial", "Deluxe.c112_inside", "Deluxe.c112_attributes_partial", "Deluxe.c112_enum_attributes_partial", "Deluxe.c112_flat", "Deluxe.c112_flat_tuple", "Deluxe.c112_flat_struct", "Deluxe.c112_flat_enum", "Deluxe.c112_unit_violated", "Deluxe.c112_unit_accepted", "Deluxe.c112_unit_enum_accepted", "Deluxe.c112_synParen_violated"], "note": "False for `()` and for syn types that are read from parentheses, shown for all left tokens. Proved for all others; a syn type, and the separator of `Punctuated`, is assumed to read its own groups to the end."},
 {"property": "C113", "status": "proved", "theorems": ["Deluxe.c113_report", "Deluxe.c113_malformed", "Deluxe.c113_malformed_attribute", "Deluxe.c113_hidden"], "note": "The exact outcome for all attributes; c113_hidden shows for a derived structure that two explained errors are replaced by one about an unexpected token."},
 {"property": "C114", "status": "partial", "theorems": ["Deluxe.c114_field", "Deluxe.c114_struct", "Deluxe.c114_variant", "Deluxe.c114_enum_partial", "Deluxe.c114_flatten", "Deluxe.c114_container", "Deluxe.c114_transparent", "Deluxe.c114_enum_violated", "Deluxe.c114_allowed_violated"], "note": "Proved for fields, structures, variants and options; for enums allow_unknown_fields is never suggested (c114_enum_violated), and on tuple fields attributes are suggested that are not allowed there (c114_allowed_violated)."},
 {"property": "C115", "status": "partial", "theorems": ["Deluxe.c115_field_partial", "Deluxe.c115_own_name", "Deluxe.c115_variant_partial", "Deluxe.c115_own_violated", "Deluxe.c115_key_violated", "Deluxe.c115_camel_violated"], "note": "Proved for declarations whose attributes do not mention the own name; own names and keys with r# are violated (c115_own_violated, c115_key_violated), and a variant X cannot get the name X (c115_camel_violated)."},
 {"property": "C116", "status": "partial", "theorems": ["Deluxe.c116_same_partial", "Deluxe.c116_beside", "Deluxe.c116_fallback", "Deluxe.c116_optional_violated", "Deluxe.c116_violated"], "note": "Proved for variants all of whose fields without default are given, where no other variant applies (c116_same_partial; c116_beside with the exact condition for variants that take any key), and for the variant without required fields that is read when nothing else applies (c116_fallback). For fields that may be left out because of their type it is violated (c116_optional_violated, c116_violated). If several variants apply see C45."},
 {"property": "C117", "status": "partial", "theorems": ["Deluxe.c117_field_partial", "Deluxe.c117_struct", "Deluxe.c117_variant", "Deluxe.c117_rename_violated"], "note": "Proved for structures, variants and fields; on tuple fields for lists without rename and alias, for which it is violated (c117_rename_violated)."},
 {"property": "C118", "status": "partial", "theorems": ["Deluxe.c118_every_type_partial", "Deluxe.c118_same_value", "Deluxe.c118_same_value_unnamed", "Deluxe.c118_item", "Deluxe.c118_sequence", "Deluxe.c118_struct", "Deluxe.c118_order", "Deluxe.c118_append_sequence", "Deluxe.c118_append_set", "Deluxe.c118_rest", "Deluxe.c118_struct_any", "Deluxe.c118_enum_any", "Deluxe.c118_every_flat", "Deluxe.c118_struct_braces", "Deluxe.c118_enum_braces", "Deluxe.c118_sequence_brackets", "Deluxe.c118_set", "Deluxe.c118_set_brackets", "Deluxe.c118_map", "Deluxe.c118_map_braces", "Deluxe.c118_array", "Deluxe.c118_array_brackets", "Deluxe.c118_tuple", "Deluxe.c118_tuple_parens", "Deluxe.c118_empty_array", "Deluxe.c118_lone_comma_violated", "Deluxe.c118_spanned_violated", "Deluxe.c118_tokenTree_violated"], "note": "Proved for all provided types except the span of SpannedValue and except TokenTree and Punct, for which it is false (c118_spanned_violated, c118_tokenTree_violated). The parsers of syn nodes are asked to have the property. The comma after the last element is proved for sequences, sets, maps, arrays and tuples, with and without brackets, if there is an element (c118_lone_comma_violated). Flattened, append and rest fields are covered by c118_every_flat, and structures and enums with such fields by c118_struct_any, c118_enum_any, c118_struct_braces and c118_enum_braces; c118_struct and c118_order still take the property of these fields as a hypothesis."},
 {"property": "C119", "status": "partial", "theorems": ["Deluxe.c119_struct", "Deluxe.c119_item", "Deluxe.c119_attributes", "Deluxe.c119_unchecked", "Deluxe.c119_default", "Deluxe.c119_optional", "Deluxe.c119_unknown_violated", "Deluxe.c119_enum", "Deluxe.c119_enum_checked", "Deluxe.c119_enum_default_violated", "Deluxe.c119_tuple", "Deluxe.c119_tuple_item", "Deluxe.c119_tuple_flag", "Deluxe.c119_tuple_named", "Deluxe.c119_tuple_flag_violated", "Deluxe.c119_tuple_streams_violated"], "note": "False for structures that allow unknown keys: an item that was ignored becomes the value of a new field (c119_unknown_violated). For those c119_unchecked asks that no item has one of the new names. c119_item and c119_attributes ask that the types of the fields leave nothing unexpected behind, c119_struct does not. Enums: c119_enum for inputs without new names, c119_enum_checked for all accepted inputs that name a variant, or of enums without flattened variants and default; with a default it is false (c119_enum_default_violated). Tuple structures without flattened fields: c119_tuple for the items, c119_tuple_item, c119_tuple_flag and c119_tuple_named for all forms of one item; as flags only those with a field that is parsed (c119_tuple_flag_violated), and it is false for items spread over several attributes (c119_tuple_streams_violated)."},
 {"property": "C120", "status": "partial", "theorems": ["Deluxe.c120_others", "Deluxe.c120_parse_after", "Deluxe.c120_commute", "Deluxe.c120_again", "Deluxe.c120_structs", "Deluxe.c120_struct_enum", "Deluxe.c120_shared_violated", "Deluxe.c120_container_violated"], "note": "False in general: of two types with a common path the first one takes the attributes (c120_shared_violated), and the object in a container field has the attributes that the other type did not take yet (c120_container_violated). Proved for types without container field and with no common path on the object."},
 {"property": "C121", "status": "partial", "theorems": ["Deluxe.c121_reads", "Deluxe.c121_flat", "Deluxe.c121_attributes", "Deluxe.c121_functions_violated", "Deluxe.c121_missing_violated"], "note": "False in general: the functions of a field are applied to its own default and not to the value taken from the default of the structure (c121_functions_violated), and only the default of the structure lets a field of its type be left out (c121_missing_violated). Proved, as equality of the readers, where fields with functions have a default of their own, for everything but the value of a left-out field."},
 {"property": "C122", "status": "proved", "theorems": ["Deluxe.c122_own_names", "Deluxe.c122_names", "Deluxe.c122_struct", "Deluxe.c122_every_flat", "Deluxe.c122_append_sequence", "Deluxe.c122_append_set", "Deluxe.c122_rest", "Deluxe.c122_enum_flat", "Deluxe.c122_enum"], "note": "For types whose parser does not look past a comma (C56). c122_own_names is the claim for the fields of the structure itself, c122_names for any exchange under which keys stay with the same field. Append fields of types that look at the name under which the item was written are left out. c122_enum_flat is for enums, with flattened variants or without (c122_enum), and for the value only: their messages name the variant as written."},
 {"property": "C123", "status": "proved", "theorems": ["Deluxe.c123_rename", "Deluxe.c123_names", "Deluxe.c123_struct", "Deluxe.c123_every_flat", "Deluxe.c123_append_sequence", "Deluxe.c123_append_set", "Deluxe.c123_enum", "Deluxe.c123_enum_rename"], "note": "For types whose parser does not look past a comma (C56) and does not depend on the name of the field, except in the message that it is missing. c123_names is for any two definitions that differ in names only, flattened ones inside them too, and any correspondence of keys; c123_rename for a renaming function. That the renamed definition parses without panic is a hypothesis (FieldsFine), met by the types of C69. Variants: c123_enum and c123_enum_rename, for enums without flattened variants; the fields inside the variants keep their names there."},
 {"property": "C124", "status": "proved", "theorems": ["Deluxe.c124_unknown", "Deluxe.c124_items", "Deluxe.c124_struct", "Deluxe.c124_every_flat", "Deluxe.c124_append_sequence", "Deluxe.c124_append_set", "Deluxe.c124_rest", "Deluxe.c124_enum"], "note": "For types whose parser does not look past a comma (C56). c124_items is for any set of keys that the structure and its flat fields, in any nesting, do not own; c124_unknown derives this for all keys that are not among the names of a structure with allow_unknown_fields, whose flat fields are append fields and flattened structures without flat fields of their own."},
 {"property": "C125", "status": "proved", "theorems": ["Deluxe.c125_items", "Deluxe.c125_names", "Deluxe.c125_field", "Deluxe.c125_flattened", "Deluxe.c125_every_flat", "Deluxe.c125_append_sequence", "Deluxe.c125_append_set", "Deluxe.c125_rest"], "note": "For any number of attributes, or what is in brackets, and for types that take the end of the list like a comma (C118) and leave nothing unexpected behind when they succeed (C101). Says nothing about lists that are rejected: any item can be the reason for that."},
 {"property": "C126", "status": "proved", "theorems": ["Deluxe.c126_struct", "Deluxe.c126_items", "Deluxe.c126_every_flat", "Deluxe.c126_types", "Deluxe.c126_variant", "Deluxe.c126_enum"], "note": "For types that take the end of the list like a comma (C118) and leave nothing unexpected behind when they succeed (C101). c126_every_flat is for the items of fields of flattened structures, in any nesting; such a flattened field must not have functions of its own, which could reject its new value. c126_types, mayOmit_default, mayOmit_missing and mayOmit_target show which fields may be omitted."},
 {"property": "C127", "status": "proved", "theorems": ["Deluxe.c127_struct", "Deluxe.c127_items", "Deluxe.c127_variant", "Deluxe.c127_enum"], "note": "For types that take the end of the list like a comma (C118) and leave nothing unexpected behind when they succeed (C101), and where the flat fields do not take items of the field (PlainIgnores, C124). Exchanging several items is exchanging one after the other. Items of fields of flattened structures are not exchanged."},
 {"property": "C128", "status": "proved", "theorems": ["Deluxe.c128_struct", "Deluxe.c128_items", "Deluxe.c128_variant", "Deluxe.c128_enum"], "note": "For types that take the end of the list like a comma (C118) and leave nothing unexpected behind when they succeed (C101), and where the flat fields do not take items of the field (PlainIgnores, C124). Leaving out is C126, exchanging C127. Items of fields of flattened structures are not added."},
 {"property": "C129", "status": "proved", "theorems": ["Deluxe.c129_u8", "Deluxe.c129_char", "Deluxe.c129_ident", "Deluxe.c129_literal", "Deluxe.c129_punct", "Deluxe.c129_group", "Deluxe.c129_tokenTree", "Deluxe.c129_otherwise"], "note": "Spans and literal suffixes are not part of the values. Groups without delimiters are not modelled. The other primitive types are C62."}
]}
