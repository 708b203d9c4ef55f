import Verif.Props.Errors
import Verif.Props.Tokens
import Verif.Props.Paths
import Verif.Props.Strings
import Verif.Props.Progress
import Verif.Props.Loops
import Verif.Props.AttrTokens
import Verif.Props.Collections
import Verif.Props.Maps
import Verif.Props.Fixed
import Verif.Props.Types
import Verif.Props.Primitives
import Verif.Props.Structs
import Verif.Props.Flatten
import Verif.Props.TupleStructs
import Verif.Props.Enums
import Verif.Props.Attributes
import Verif.Props.With
import Verif.Props.DefFields
import Verif.Props.Defs
import Verif.Props.Local
import Verif.Props.Transparent
import Verif.Props.Header
import Verif.Props.Glue
import Verif.Props.UnknownKeys
import Verif.Props.RestField
import Verif.Props.Optional
import Verif.Props.EnumKeys
import Verif.Props.Variants
import Verif.Props.AppendField
import Verif.Props.AndThen
import Verif.Props.SwitchOff
import Verif.Props.SwitchOffEnum
import Verif.Props.Inline
import Verif.Props.Forms
import Verif.Props.TupleInline
import Verif.Props.Numbers
import Verif.Props.ProcMacro
import Verif.Props.RestOthers
import Verif.Props.LeftOut
import Verif.Props.EnumAttrs
import Verif.Props.KeyStrings
import Verif.Props.Containers
import Verif.Props.DefText
import Verif.Props.DefBad
import Verif.Props.Scope
import Verif.Props.ScopeEnum
import Verif.Props.ScopeTypes
import Verif.Props.ScopeCases
import Verif.Props.TopParse
import Verif.Props.SkipVariants
import Verif.Props.AndThenText
import Verif.Props.Located
import Verif.Props.Reorder
import Verif.Props.ReorderFlat
import Verif.Props.Cells
import Verif.Props.Calls
import Verif.Props.CallCases
import Verif.Props.ReorderVariants
import Verif.Props.Impls
import Verif.Props.DefTwice
import Verif.Props.Cover
import Verif.Props.Reloc
import Verif.Props.Render
import Verif.Props.Write
import Verif.Props.WriteDerive
import Verif.Props.Writable
import Verif.Props.Rejected
import Verif.Props.Reported
import Verif.Props.WriteFlat
import Verif.Props.WriteFlatEnum
import Verif.Props.WriteFlatDemo
import Verif.Props.ImplsExact
import Verif.Props.Suggest
import Verif.Props.RawNames
import Verif.Props.WriteTuple
import Verif.Props.FlatVariants
import Verif.Props.DefPlaces
import Verif.Props.LastItem
import Verif.Props.TrailingComma
import Verif.Props.TrailingFlat
import Verif.Props.TrailingEnum
import Verif.Props.TrailingBrace
import Verif.Props.Extended
import Verif.Props.ExtendedEnum
import Verif.Props.ExtendedTuple
import Verif.Props.Apart
import Verif.Props.FlatFallback
import Verif.Props.WholeDefault
import Verif.Props.Aliases
import Verif.Props.AliasesEnum
import Verif.Props.AliasesFlatEnum
import Verif.Props.Rename
import Verif.Props.RenameEnum
import Verif.Props.Ignored
import Verif.Props.IgnoredEnum
import Verif.Props.OwnItems
import Verif.Props.Omitted
import Verif.Props.Replaced
import Verif.Props.PrefixReads
import Verif.Props.Added
import Verif.Props.VariantItems
import Verif.Props.SingleToken
import Verif.Props.EnumItems

/-! The axioms that the theorems of the manifest depend on, printed during the build. -/

#print axioms Deluxe.c01_errors_exact
#print axioms Deluxe.c01_push_result_value
#print axioms Deluxe.c01_conversions
#print axioms Deluxe.c02_optional
#print axioms Deluxe.c02_attributes_optional
#print axioms Deluxe.c03_skip_stops_at_comma
#print axioms Deluxe.c03_skip_exact
#print axioms Deluxe.c03_skip_idempotent
#print axioms Deluxe.c03_skip_ignores_nested
#print axioms Deluxe.c04_eof
#print axioms Deluxe.c04_peek
#print axioms Deluxe.c05_equals
#print axioms Deluxe.c05_flag
#print axioms Deluxe.c05_paren
#print axioms Deluxe.c05_with_agrees
#print axioms Deluxe.c05_try_agrees
#print axioms Deluxe.c06_first_stream
#print axioms Deluxe.c06_no_stream_partial
#print axioms Deluxe.c06_later_streams_accepted
#print axioms Deluxe.c07_path_sound
#print axioms Deluxe.c07_path_roundtrip
#print axioms Deluxe.c07_path_rejects
#print axioms Deluxe.c07_key_injective
#print axioms Deluxe.c08_struct_loop
#print axioms Deluxe.c08_consumes_all
#print axioms Deluxe.c08_calls
#print axioms Deluxe.c09_split_independent
#print axioms Deluxe.c09_result
#print axioms Deluxe.c10_positional_loop
#print axioms Deluxe.c10_log_faithful
#print axioms Deluxe.c11_parse_empty_first_partial
#print axioms Deluxe.c11_parse_empty_violated
#print axioms Deluxe.c12_join_segments
#print axioms Deluxe.c12_strip_segments
#print axioms Deluxe.c12_join_strip
#print axioms Deluxe.c13_path_matches_exact
#print axioms Deluxe.c14_smallstring_is_string
#print axioms Deluxe.c15_repr_irrelevant
#print axioms Deluxe.c15_borrow
#print axioms Deluxe.c15_printed
#print axioms Deluxe.c16_unknown
#print axioms Deluxe.c17_take_partition
#print axioms Deluxe.c18_ref_eq_take
#print axioms Deluxe.c18_struct
#print axioms Deluxe.c18_enum
#print axioms Deluxe.c18_extract_removes
#print axioms Deluxe.c18_container_differs
#print axioms Deluxe.c19_attr_tokens
#print axioms Deluxe.c20_missing_and_flag
#print axioms Deluxe.c20_named
#print axioms Deluxe.c20_positional
#print axioms Deluxe.c20_error_kept
#print axioms Deluxe.c21_exact
#print axioms Deluxe.c21_never_panics
#print axioms Deluxe.c21_elements
#print axioms Deluxe.c21_all_errors
#print axioms Deluxe.c21_bracketed
#print axioms Deluxe.c22_exact
#print axioms Deluxe.c22_never_panics
#print axioms Deluxe.c22_components
#print axioms Deluxe.c22_parenthesized
#print axioms Deluxe.c23_sequence
#print axioms Deluxe.c23_bracketed
#print axioms Deluxe.c23_only_elements
#print axioms Deluxe.c23_malformed_drops_errors
#print axioms Deluxe.c24_set
#print axioms Deluxe.c24_only_elements
#print axioms Deluxe.c25_map
#print axioms Deluxe.c25_only_entries
#print axioms Deluxe.c26_append_sequence
#print axioms Deluxe.c26_append_set
#print axioms Deluxe.c26_only_sequence
#print axioms Deluxe.c26_only_set
#print axioms Deluxe.c27_rest
#print axioms Deluxe.c27_only_entries
#print axioms Deluxe.c27_failing_value_hides
#print axioms Deluxe.c28_named
#print axioms Deluxe.c28_no_value
#print axioms Deluxe.c28_elsewhere
#print axioms Deluxe.c29_spanned_partial
#print axioms Deluxe.c29_spanned_flat
#print axioms Deluxe.c29_wrapper_partial
#print axioms Deluxe.c29_missing_violated
#print axioms Deluxe.c29_inline_violated
#print axioms Deluxe.c29_named_violated
#print axioms Deluxe.c30_struct
#print axioms Deluxe.c30_flattened
#print axioms Deluxe.c30_provided
#print axioms Deluxe.c30_named
#print axioms Deluxe.c31_struct
#print axioms Deluxe.c32_order
#print axioms Deluxe.c33_duplicates
#print axioms Deluxe.c35_messages
#print axioms Deluxe.c34_unknown_reported
#print axioms Deluxe.c34_unknown_ignored
#print axioms Deluxe.c35_nothing_hidden
#print axioms Deluxe.c36_missing_partial
#print axioms Deluxe.c36_renamed_violated
#print axioms Deluxe.c37_not_owned
#print axioms Deluxe.c37_unknown
#print axioms Deluxe.c37_value
#print axioms Deluxe.c37_struct
#print axioms Deluxe.c37_attributes
#print axioms Deluxe.c37_enum
#print axioms Deluxe.c38_transforms
#print axioms Deluxe.c39_flattened_value
#print axioms Deluxe.c39_names
#print axioms Deluxe.c40_reads_partial
#print axioms Deluxe.c40_unprefixed_partial
#print axioms Deluxe.c40_stripped_partial
#print axioms Deluxe.c40_prefixed_keys
#print axioms Deluxe.c40_flatten_prefix_partial
#print axioms Deluxe.c40_nested_violated
#print axioms Deluxe.c41_positions
#print axioms Deluxe.c41_messages
#print axioms Deluxe.c41_all_given
#print axioms Deluxe.c41_too_few
#print axioms Deluxe.c41_parenthesized
#print axioms Deluxe.c41_none_parsed
#print axioms Deluxe.c42_never_missing
#print axioms Deluxe.c42_omitted
#print axioms Deluxe.c43_one
#print axioms Deluxe.c43_one_ok
#print axioms Deluxe.c43_two
#print axioms Deluxe.c43_failing_value
#print axioms Deluxe.c43_value
#print axioms Deluxe.c44_enum_partial
#print axioms Deluxe.c44_traits_partial
#print axioms Deluxe.c44_and_then_violated
#print axioms Deluxe.c45_applies
#print axioms Deluxe.c45_unique
#print axioms Deluxe.c45_keyless
#print axioms Deluxe.c45_keyless_fails
#print axioms Deluxe.c45_default
#print axioms Deluxe.c45_ambiguous_violated
#print axioms Deluxe.c46_struct
#print axioms Deluxe.c46_accepted
#print axioms Deluxe.c46_one_field
#print axioms Deluxe.c46_reported
#print axioms Deluxe.c46_variant_violated
#print axioms Deluxe.c47_field
#print axioms Deluxe.c47_messages
#print axioms Deluxe.c47_reported
#print axioms Deluxe.c47_accepted_partial
#print axioms Deluxe.c47_after_default_violated
#print axioms Deluxe.c47_skip_violated
#print axioms Deluxe.c48_variant
#print axioms Deluxe.c48_accepted
#print axioms Deluxe.c49_only_one
#print axioms Deluxe.c49_all_or_none
#print axioms Deluxe.c49_own_prefix_violated
#print axioms Deluxe.c50_or
#print axioms Deluxe.c50_map
#print axioms Deluxe.c50_unwrap
#print axioms Deluxe.c50_parse_named_item
#print axioms Deluxe.c51_single_partial
#print axioms Deluxe.c51_stops_at_separator
#print axioms Deluxe.c51_violated
#print axioms Deluxe.c52_token_stream
#print axioms Deluxe.c52_nothing
#print axioms Deluxe.c52_flag_and_missing
#print axioms Deluxe.c52_flat_partial
#print axioms Deluxe.c52_flat_violated
#print axioms Deluxe.c53_top_partial
#print axioms Deluxe.c53_needs_group
#print axioms Deluxe.c53_content_violated
#print axioms Deluxe.c53_inline_violated
#print axioms Deluxe.c54_required
#print axioms Deluxe.c54_listed_partial
#print axioms Deluxe.c54_disallowed
#print axioms Deluxe.c54_alias_violated
#print axioms Deluxe.c55_provided
#print axioms Deluxe.c55_flat
#print axioms Deluxe.c55_loops
#print axioms Deluxe.c55_punctuated_partial
#print axioms Deluxe.c55_punctuated_diverges
#print axioms Deluxe.c56_every_type_partial
#print axioms Deluxe.c56_same_outcome
#print axioms Deluxe.c56_same_outcome_named
#print axioms Deluxe.c56_comma_left
#print axioms Deluxe.c56_variant
#print axioms Deluxe.c56_tokenTree
#print axioms Deluxe.c56_punct
#print axioms Deluxe.c56_tokenTree_violated
#print axioms Deluxe.c57_from_str
#print axioms Deluxe.c57_from_str_error
#print axioms Deluxe.c57_quoted
#print axioms Deluxe.c57_quoted_errors
#print axioms Deluxe.c57_quoted_other
#print axioms Deluxe.c57_maybe_quoted_partial
#print axioms Deluxe.c57_maybe_quoted_violated
#print axioms Deluxe.c57_maybe_quoted_list_violated
#print axioms Deluxe.c57_optional_partial
#print axioms Deluxe.c57_optional_flag_violated
#print axioms Deluxe.c57_collection
#print axioms Deluxe.c57_collection_violated
#print axioms Deluxe.c57_append_partial
#print axioms Deluxe.c57_append_flag_violated
#print axioms Deluxe.c57_map_partial
#print axioms Deluxe.c57_map_violated
#print axioms Deluxe.c57_never_panics
#print axioms Deluxe.c58_one_list
#print axioms Deluxe.c58_kinds
#print axioms Deluxe.c58_same_list
#print axioms Deluxe.c58_unsupported
#print axioms Deluxe.c58_errors
#print axioms Deluxe.c58_infer_violated
#print axioms Deluxe.c59_has_paths
#print axioms Deluxe.c59_remove_paths
#print axioms Deluxe.c59_disallow_paths
#print axioms Deluxe.c60_never_panics
#print axioms Deluxe.c60_panics
#print axioms Deluxe.c60_errors_kept
#print axioms Deluxe.c60_leftovers_hide_errors
#print axioms Deluxe.c61_start_partial
#print axioms Deluxe.c61_end_violated
#print axioms Deluxe.c62_bool
#print axioms Deluxe.c62_string
#print axioms Deluxe.c62_int
#print axioms Deluxe.c62_bare_and_missing
#print axioms Deluxe.c63_beside_variant
#print axioms Deluxe.c63_no_variant
#print axioms Deluxe.c63_default_violated
#print axioms Deluxe.c64_named_partial
#print axioms Deluxe.c64_flattened_violated
#print axioms Deluxe.c65_outcome
#print axioms Deluxe.c65_struct
#print axioms Deluxe.c65_enum
#print axioms Deluxe.c65_missing_partial
#print axioms Deluxe.c65_struct_never_panics
#print axioms Deluxe.c65_enum_never_panics_partial
#print axioms Deluxe.c65_forms
#print axioms Deluxe.c66_takes_all
#print axioms Deluxe.c66_is_last
#print axioms Deluxe.c66_parenthesised
#print axioms Deluxe.c66_field
#print axioms Deluxe.c67_never_panics_partial
#print axioms Deluxe.c67_variant
#print axioms Deluxe.c67_enum
#print axioms Deluxe.c67_enum_panics
#print axioms Deluxe.c67_variant_name_violated
#print axioms Deluxe.c68_enum
#print axioms Deluxe.c68_accepted
#print axioms Deluxe.c68_distinct
#print axioms Deluxe.c69_struct_attr
#print axioms Deluxe.c69_struct_meta
#print axioms Deluxe.c69_struct_never_panics
#print axioms Deluxe.c69_enum_never_panics_partial
#print axioms Deluxe.c69_transparent_violated
#print axioms Deluxe.c70_accepted_partial
#print axioms Deluxe.c70_rest_violated
#print axioms Deluxe.c70_parse
#print axioms Deluxe.c70_inline
#print axioms Deluxe.c70_flag
#print axioms Deluxe.c70_named
#print axioms Deluxe.c70_attr
#print axioms Deluxe.c70_missing_partial
#print axioms Deluxe.c70_missing_violated
#print axioms Deluxe.c70_named_functions
#print axioms Deluxe.c70_message_violated
#print axioms Deluxe.c71_flat_named
#print axioms Deluxe.c71_flat_unnamed_partial
#print axioms Deluxe.c71_rest
#print axioms Deluxe.c71_append
#print axioms Deluxe.c71_only_asked
#print axioms Deluxe.c71_index_violated
#print axioms Deluxe.c72_object
#print axioms Deluxe.c72_given
#print axioms Deluxe.c72_clone
#print axioms Deluxe.c72_has_attributes
#print axioms Deluxe.c72_lifetime
#print axioms Deluxe.c72_new_lifetime
#print axioms Deluxe.c72_generic
#print axioms Deluxe.c72_params
#print axioms Deluxe.c72_parse_lifetime
#print axioms Deluxe.c72_container_captures_nothing
#print axioms Deluxe.c72_capture_partial
#print axioms Deluxe.c72_capture_violated
#print axioms Deluxe.c72_distinct_partial
#print axioms Deluxe.c72_const_violated
#print axioms Deluxe.c72_field_partial
#print axioms Deluxe.c72_field_violated
#print axioms Deluxe.c73_accepted
#print axioms Deluxe.c73_crate_missing
#print axioms Deluxe.c73_rejected
#print axioms Deluxe.c73_no_definition
#print axioms Deluxe.c73_never_panics_partial
#print axioms Deluxe.c73_silent
#print axioms Deluxe.c73_first_name
#print axioms Deluxe.c73_crate_given
#print axioms Deluxe.c73_struct_end_to_end
#print axioms Deluxe.c73_traits
#print axioms Deluxe.c73_generate_violated
#print axioms Deluxe.c73_name_violated
#print axioms Deluxe.c73_panics_violated
#print axioms Deluxe.c74_announced
#print axioms Deluxe.c74_parsed
#print axioms Deluxe.c74_enum_violated
#print axioms Deluxe.c74_tuple_violated
#print axioms Deluxe.c75_unclaimed_partial
#print axioms Deluxe.c75_own_name_violated
#print axioms Deluxe.c75_flattened_violated
#print axioms Deluxe.c75_prefix_violated
#print axioms Deluxe.c76_forms_partial
#print axioms Deluxe.c76_paren
#print axioms Deluxe.c76_delimited
#print axioms Deluxe.c76_struct_violated
#print axioms Deluxe.c76_sequence_violated
#print axioms Deluxe.c77_names
#print axioms Deluxe.c77_beside_flattened
#print axioms Deluxe.c77_beside_rest
#print axioms Deluxe.c77_beside_named_violated
#print axioms Deluxe.c77_skipped_violated
#print axioms Deluxe.c78_same_partial
#print axioms Deluxe.c78_transparent
#print axioms Deluxe.c78_prefix_violated
#print axioms Deluxe.c79_sequence
#print axioms Deluxe.c79_set
#print axioms Deluxe.c79_any_number
#print axioms Deluxe.c79_default_violated
#print axioms Deluxe.c80_struct
#print axioms Deluxe.c80_struct_flat
#print axioms Deluxe.c80_enum
#print axioms Deluxe.c80_errors_kept
#print axioms Deluxe.c80_default
#print axioms Deluxe.c80_struct_attr
#print axioms Deluxe.c80_enum_attr
#print axioms Deluxe.c80_struct_written
#print axioms Deluxe.c80_enum_written
#print axioms Deluxe.c81_field
#print axioms Deluxe.c81_struct_partial
#print axioms Deluxe.c81_excluded_violated
#print axioms Deluxe.c81_container_violated
#print axioms Deluxe.c81_transparent_violated
#print axioms Deluxe.c81_variant
#print axioms Deluxe.c81_enum_partial
#print axioms Deluxe.c81_variant_violated
#print axioms Deluxe.c82_inline
#print axioms Deluxe.c82_prefix
#print axioms Deluxe.c82_shared_violated
#print axioms Deluxe.c83_collections
#print axioms Deluxe.c83_struct
#print axioms Deluxe.c83_enum
#print axioms Deluxe.c83_transparent
#print axioms Deluxe.c83_struct_unknown
#print axioms Deluxe.c83_enum_unknown
#print axioms Deluxe.c83_enum_unknown_none
#print axioms Deluxe.c83_wrapped_violated
#print axioms Deluxe.c83_transparent_same
#print axioms Deluxe.c83_transparent_violated
#print axioms Deluxe.c84_inline
#print axioms Deluxe.c84_parenthesized
#print axioms Deluxe.c84_attributes_violated
#print axioms Deluxe.c84_empty_violated
#print axioms Deluxe.c84_flag_violated
#print axioms Deluxe.c85_missing
#print axioms Deluxe.c85_number_partial
#print axioms Deluxe.c85_container_violated
#print axioms Deluxe.c85_flattened_violated
#print axioms Deluxe.c85_before_flattened_violated
#print axioms Deluxe.c86_literal
#print axioms Deluxe.c86_punct
#print axioms Deluxe.c86_group
#print axioms Deluxe.c86_tokenTree_partial
#print axioms Deluxe.c86_ident_partial
#print axioms Deluxe.c86_tokenStream_partial
#print axioms Deluxe.c86_raw_violated
#print axioms Deluxe.c86_raw_ident_violated
#print axioms Deluxe.c86_keyword_violated
#print axioms Deluxe.c86_tokenStream_violated
#print axioms Deluxe.c86_tokenStream_empty_violated
#print axioms Deluxe.c86_hidden_violated
#print axioms Deluxe.c87_fields
#print axioms Deluxe.c87_key
#print axioms Deluxe.c87_key_violated
#print axioms Deluxe.c87_literals_violated
#print axioms Deluxe.c87_string_violated
#print axioms Deluxe.c87_keyword_violated
#print axioms Deluxe.c88_left_out
#print axioms Deluxe.c88_bare
#print axioms Deluxe.c88_bare_spanned
#print axioms Deluxe.c88_bare_syn
#print axioms Deluxe.c89_same_partial
#print axioms Deluxe.c89_dropped_violated
#print axioms Deluxe.c89_reported
#print axioms Deluxe.c90_same
#print axioms Deluxe.c90_path
#print axioms Deluxe.c91_accepts_partial
#print axioms Deluxe.c91_smallString_violated
#print axioms Deluxe.c92_struct
#print axioms Deluxe.c92_enum_violated
#print axioms Deluxe.c93_struct
#print axioms Deluxe.c93_enum
#print axioms Deluxe.c93_derived
#print axioms Deluxe.c93_derived_enum
#print axioms Deluxe.c93_held
#print axioms Deluxe.c93_mut_violated
#print axioms Deluxe.c94_field_item
#print axioms Deluxe.c94_struct_item
#print axioms Deluxe.c94_variant_item
#print axioms Deluxe.c94_enum_item
#print axioms Deluxe.c94_field
#print axioms Deluxe.c94_struct
#print axioms Deluxe.c94_variant
#print axioms Deluxe.c94_enum
#print axioms Deluxe.c95_field
#print axioms Deluxe.c95_struct
#print axioms Deluxe.c95_variant
#print axioms Deluxe.c95_enum
#print axioms Deluxe.c95_flatten
#print axioms Deluxe.c95_container
#print axioms Deluxe.c95_transparent
#print axioms Deluxe.c96_struct
#print axioms Deluxe.c96_enum
#print axioms Deluxe.c96_transparent_violated
#print axioms Deluxe.c96_variant_violated
#print axioms Deluxe.c97_struct
#print axioms Deluxe.c97_enum
#print axioms Deluxe.c97_flatten_violated
#print axioms Deluxe.c97_prefix_violated
#print axioms Deluxe.c98_struct_partial
#print axioms Deluxe.c98_struct
#print axioms Deluxe.c98_named
#print axioms Deluxe.c98_unit
#print axioms Deluxe.c98_enum
#print axioms Deluxe.c98_nested
#print axioms Deluxe.c98_nested_enum
#print axioms Deluxe.c98_missing
#print axioms Deluxe.c98_trailing_comma_violated
#print axioms Deluxe.c98_any_key_violated
#print axioms Deluxe.c99_item_partial
#print axioms Deluxe.c99_flat_partial
#print axioms Deluxe.c99_attr_partial
#print axioms Deluxe.c99_accepted_partial
#print axioms Deluxe.c99_definition_partial
#print axioms Deluxe.c99_flatten_violated
#print axioms Deluxe.c99_names_violated
#print axioms Deluxe.c100_every_type
#print axioms Deluxe.c100_parse2
#print axioms Deluxe.c100_parse_attributes
#print axioms Deluxe.c100_extract_attributes
#print axioms Deluxe.c100_struct
#print axioms Deluxe.c100_enum
#print axioms Deluxe.c100_item
#print axioms Deluxe.c100_call_site_violated
#print axioms Deluxe.c101_flattened
#print axioms Deluxe.c101_messages
#print axioms Deluxe.c101_item
#print axioms Deluxe.c101_attributes
#print axioms Deluxe.c101_item_flat
#print axioms Deluxe.c101_attributes_flat
#print axioms Deluxe.c101_drains
#print axioms Deluxe.c101_drains_struct
#print axioms Deluxe.c101_tidy_struct
#print axioms Deluxe.c101_rest
#print axioms Deluxe.c101_definition
#print axioms Deluxe.c101_meaning
#print axioms Deluxe.c101_meaning_meta
#print axioms Deluxe.c101_one_owner
#print axioms Deluxe.c101_suggestion_violated
#print axioms Deluxe.c102_flattened
#print axioms Deluxe.c102_item_partial
#print axioms Deluxe.c102_attributes_partial
#print axioms Deluxe.c102_item_flat_partial
#print axioms Deluxe.c102_attributes_flat_partial
#print axioms Deluxe.c102_parsed
#print axioms Deluxe.c102_rest_violated
#print axioms Deluxe.c103_names
#print axioms Deluxe.c103_struct
#print axioms Deluxe.c103_enum
#print axioms Deluxe.c103_program
#print axioms Deluxe.c103_generic_violated
#print axioms Deluxe.c103_nested_violated
#print axioms Deluxe.c104_struct_partial
#print axioms Deluxe.c104_struct_reads
#print axioms Deluxe.c104_enum_partial
#print axioms Deluxe.c104_enum_reads
#print axioms Deluxe.c104_forwards
#print axioms Deluxe.c104_flatten_type
#print axioms Deluxe.c104_flatten_with_violated
#print axioms Deluxe.c104_skip_violated
#print axioms Deluxe.c104_transparent_map_violated
#print axioms Deluxe.c104_variant_with_violated
#print axioms Deluxe.c105_flattened
#print axioms Deluxe.c105_item
#print axioms Deluxe.c105_attributes
#print axioms Deluxe.c105_definition
#print axioms Deluxe.c105_accepted_partial
#print axioms Deluxe.c105_container_violated
#print axioms Deluxe.c105_listed_violated
#print axioms Deluxe.c106_well_formed
#print axioms Deluxe.c106_once
#print axioms Deluxe.c106_output
#print axioms Deluxe.c106_flag
#print axioms Deluxe.c106_flag_iff
#print axioms Deluxe.c106_missing
#print axioms Deluxe.c106_missing_iff
#print axioms Deluxe.c106_accepts_all
#print axioms Deluxe.c106_accepts_all_iff
#print axioms Deluxe.c106_enum_fns
#print axioms Deluxe.c106_enum_left
#print axioms Deluxe.c106_names_partial
#print axioms Deluxe.c106_transparent_names
#print axioms Deluxe.c106_redeclared_partial
#print axioms Deluxe.c106_names_violated
#print axioms Deluxe.c106_redeclared_violated
#print axioms Deluxe.c107_field
#print axioms Deluxe.c107_struct
#print axioms Deluxe.c107_variant
#print axioms Deluxe.c107_enum
#print axioms Deluxe.c107_flatten
#print axioms Deluxe.c107_container
#print axioms Deluxe.c107_transparent
#print axioms Deluxe.c107_skip_violated
#print axioms Deluxe.c108_key
#print axioms Deluxe.c108_key_stable
#print axioms Deluxe.c108_inputs
#print axioms Deluxe.c108_inputs_stable
#print axioms Deluxe.c109_every_type
#print axioms Deluxe.c109_text_parse
#print axioms Deluxe.c109_text_named
#print axioms Deluxe.c109_text_inline
#print axioms Deluxe.c109_text_absent
#print axioms Deluxe.c109_accepted
#print axioms Deluxe.c109_plain_value
#print axioms Deluxe.c109_struct_target
#print axioms Deluxe.c109_enum_target
#print axioms Deluxe.c109_parse_attributes
#print axioms Deluxe.c109_extract_attributes
#print axioms Deluxe.c109_text_attributes
#print axioms Deluxe.c109_flat
#print axioms Deluxe.c109_transparent
#print axioms Deluxe.c110_text_tells
#print axioms Deluxe.c110_token_quoted
#print axioms Deluxe.c110_name_quoted
#print axioms Deluxe.c110_quoted_list
#print axioms Deluxe.c110_numbers
#print axioms Deluxe.c110_reloc
#print axioms Deluxe.c110_needs_names_violated
#print axioms Deluxe.c111_written_partial
#print axioms Deluxe.c111_attribute
#print axioms Deluxe.c111_struct
#print axioms Deluxe.c111_tuple_struct
#print axioms Deluxe.c111_unit_struct
#print axioms Deluxe.c111_transparent
#print axioms Deluxe.c111_enum
#print axioms Deluxe.c111_variant
#print axioms Deluxe.c111_transparent_variant
#print axioms Deluxe.c111_bool
#print axioms Deluxe.c111_char
#print axioms Deluxe.c111_string
#print axioms Deluxe.c111_int
#print axioms Deluxe.c111_u8
#print axioms Deluxe.c111_ident
#print axioms Deluxe.c111_literal
#print axioms Deluxe.c111_group
#print axioms Deluxe.c111_tokenStream
#print axioms Deluxe.c111_unit
#print axioms Deluxe.c111_flag
#print axioms Deluxe.c111_option
#print axioms Deluxe.c111_wrapper
#print axioms Deluxe.c111_spanned
#print axioms Deluxe.c111_convert
#print axioms Deluxe.c111_seq
#print axioms Deluxe.c111_array
#print axioms Deluxe.c111_set
#print axioms Deluxe.c111_tuple
#print axioms Deluxe.c111_map
#print axioms Deluxe.c111_key_string
#print axioms Deluxe.c111_key_char
#print axioms Deluxe.c111_key_ident
#print axioms Deluxe.c111_key_bool
#print axioms Deluxe.c111_key_int
#print axioms Deluxe.c111_none_by_name
#print axioms Deluxe.c111_some_none_false
#print axioms Deluxe.c111_tokens_read
#print axioms Deluxe.c111_flat_struct
#print axioms Deluxe.c111_among
#print axioms Deluxe.c111_flatten
#print axioms Deluxe.c111_append
#print axioms Deluxe.c111_append_set
#print axioms Deluxe.c111_rest
#print axioms Deluxe.c111_enum_among
#print axioms Deluxe.c111_flat_variant
#print axioms Deluxe.c111_items
#print axioms Deluxe.c111_flat_tuple_struct
#print axioms Deluxe.c111_one_item
#print axioms Deluxe.c111_flattened_items
#print axioms Deluxe.c111_flattened_seq
#print axioms Deluxe.c111_flattened_array
#print axioms Deluxe.c111_flattened_tuple
#print axioms Deluxe.c112_top_partial
#print axioms Deluxe.c112_inside
#print axioms Deluxe.c112_attributes_partial
#print axioms Deluxe.c112_enum_attributes_partial
#print axioms Deluxe.c112_flat
#print axioms Deluxe.c112_flat_tuple
#print axioms Deluxe.c112_flat_struct
#print axioms Deluxe.c112_flat_enum
#print axioms Deluxe.c112_unit_violated
#print axioms Deluxe.c112_unit_accepted
#print axioms Deluxe.c112_unit_enum_accepted
#print axioms Deluxe.c112_synParen_violated
#print axioms Deluxe.c113_report
#print axioms Deluxe.c113_malformed
#print axioms Deluxe.c113_malformed_attribute
#print axioms Deluxe.c113_hidden
#print axioms Deluxe.c114_field
#print axioms Deluxe.c114_struct
#print axioms Deluxe.c114_variant
#print axioms Deluxe.c114_enum_partial
#print axioms Deluxe.c114_flatten
#print axioms Deluxe.c114_container
#print axioms Deluxe.c114_transparent
#print axioms Deluxe.c114_enum_violated
#print axioms Deluxe.c114_allowed_violated
#print axioms Deluxe.c115_field_partial
#print axioms Deluxe.c115_own_name
#print axioms Deluxe.c115_variant_partial
#print axioms Deluxe.c115_own_violated
#print axioms Deluxe.c115_key_violated
#print axioms Deluxe.c115_camel_violated
#print axioms Deluxe.c116_same_partial
#print axioms Deluxe.c116_beside
#print axioms Deluxe.c116_fallback
#print axioms Deluxe.c116_optional_violated
#print axioms Deluxe.c116_violated
#print axioms Deluxe.c117_field_partial
#print axioms Deluxe.c117_struct
#print axioms Deluxe.c117_variant
#print axioms Deluxe.c117_rename_violated
#print axioms Deluxe.c118_every_type_partial
#print axioms Deluxe.c118_same_value
#print axioms Deluxe.c118_same_value_unnamed
#print axioms Deluxe.c118_item
#print axioms Deluxe.c118_sequence
#print axioms Deluxe.c118_struct
#print axioms Deluxe.c118_order
#print axioms Deluxe.c118_append_sequence
#print axioms Deluxe.c118_append_set
#print axioms Deluxe.c118_rest
#print axioms Deluxe.c118_struct_any
#print axioms Deluxe.c118_enum_any
#print axioms Deluxe.c118_every_flat
#print axioms Deluxe.c118_struct_braces
#print axioms Deluxe.c118_enum_braces
#print axioms Deluxe.c118_sequence_brackets
#print axioms Deluxe.c118_set
#print axioms Deluxe.c118_set_brackets
#print axioms Deluxe.c118_map
#print axioms Deluxe.c118_map_braces
#print axioms Deluxe.c118_array
#print axioms Deluxe.c118_array_brackets
#print axioms Deluxe.c118_tuple
#print axioms Deluxe.c118_tuple_parens
#print axioms Deluxe.c118_empty_array
#print axioms Deluxe.c118_lone_comma_violated
#print axioms Deluxe.c118_spanned_violated
#print axioms Deluxe.c118_tokenTree_violated
#print axioms Deluxe.c119_struct
#print axioms Deluxe.c119_item
#print axioms Deluxe.c119_attributes
#print axioms Deluxe.c119_unchecked
#print axioms Deluxe.c119_default
#print axioms Deluxe.c119_optional
#print axioms Deluxe.c119_unknown_violated
#print axioms Deluxe.c119_enum
#print axioms Deluxe.c119_enum_checked
#print axioms Deluxe.c119_enum_default_violated
#print axioms Deluxe.c119_tuple
#print axioms Deluxe.c119_tuple_item
#print axioms Deluxe.c119_tuple_flag
#print axioms Deluxe.c119_tuple_named
#print axioms Deluxe.c119_tuple_flag_violated
#print axioms Deluxe.c119_tuple_streams_violated
#print axioms Deluxe.c120_others
#print axioms Deluxe.c120_parse_after
#print axioms Deluxe.c120_commute
#print axioms Deluxe.c120_again
#print axioms Deluxe.c120_structs
#print axioms Deluxe.c120_struct_enum
#print axioms Deluxe.c120_shared_violated
#print axioms Deluxe.c120_container_violated
#print axioms Deluxe.c121_reads
#print axioms Deluxe.c121_flat
#print axioms Deluxe.c121_attributes
#print axioms Deluxe.c121_functions_violated
#print axioms Deluxe.c121_missing_violated
#print axioms Deluxe.c122_own_names
#print axioms Deluxe.c122_names
#print axioms Deluxe.c122_struct
#print axioms Deluxe.c122_every_flat
#print axioms Deluxe.c122_append_sequence
#print axioms Deluxe.c122_append_set
#print axioms Deluxe.c122_rest
#print axioms Deluxe.c122_enum_flat
#print axioms Deluxe.c122_enum
#print axioms Deluxe.c123_rename
#print axioms Deluxe.c123_names
#print axioms Deluxe.c123_struct
#print axioms Deluxe.c123_every_flat
#print axioms Deluxe.c123_append_sequence
#print axioms Deluxe.c123_append_set
#print axioms Deluxe.c123_enum
#print axioms Deluxe.c123_enum_rename
#print axioms Deluxe.c124_unknown
#print axioms Deluxe.c124_items
#print axioms Deluxe.c124_struct
#print axioms Deluxe.c124_every_flat
#print axioms Deluxe.c124_append_sequence
#print axioms Deluxe.c124_append_set
#print axioms Deluxe.c124_rest
#print axioms Deluxe.c124_enum
#print axioms Deluxe.c125_items
#print axioms Deluxe.c125_names
#print axioms Deluxe.c125_field
#print axioms Deluxe.c125_flattened
#print axioms Deluxe.c125_every_flat
#print axioms Deluxe.c125_append_sequence
#print axioms Deluxe.c125_append_set
#print axioms Deluxe.c125_rest
#print axioms Deluxe.c126_struct
#print axioms Deluxe.c126_items
#print axioms Deluxe.c126_every_flat
#print axioms Deluxe.c126_types
#print axioms Deluxe.c126_variant
#print axioms Deluxe.c126_enum
#print axioms Deluxe.c127_struct
#print axioms Deluxe.c127_items
#print axioms Deluxe.c127_variant
#print axioms Deluxe.c127_enum
#print axioms Deluxe.c128_struct
#print axioms Deluxe.c128_items
#print axioms Deluxe.c128_variant
#print axioms Deluxe.c128_enum
#print axioms Deluxe.c129_u8
#print axioms Deluxe.c129_char
#print axioms Deluxe.c129_ident
#print axioms Deluxe.c129_literal
#print axioms Deluxe.c129_punct
#print axioms Deluxe.c129_group
#print axioms Deluxe.c129_tokenTree
#print axioms Deluxe.c129_otherwise
