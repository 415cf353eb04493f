{
 "claims": [
  {
   "property": "C01",
   "status": "proved",
   "theorems": [
    "Makeshift.Props.C01_enum_round_trip",
    "Makeshift.Props.C01_enum_round_trip_needs_distinct_names"
   ],
   "note": "Needs pairwise distinct names; a witness shows the hypothesis is necessary."
  },
  {
   "property": "C02",
   "status": "proved",
   "theorems": [
    "Makeshift.Props.C02_parse_enum_iff",
    "Makeshift.Props.C02_parse_enum_total",
    "Makeshift.Props.C02_parse_enum_accepts_iff",
    "Makeshift.Props.C02_enum_to_string"
   ],
   "note": ""
  },
  {
   "property": "C03",
   "status": "proved",
   "theorems": [
    "Makeshift.Props.C03_enum_error_message",
    "Makeshift.Props.C03_flags_error_message"
   ],
   "note": ""
  },
  {
   "property": "C04",
   "status": "proved",
   "theorems": [
    "Makeshift.Props.C04_flags_round_trip",
    "Makeshift.Props.C04_flags_round_trip_fails_for_names_with_plus"
   ],
   "note": "Needs clean flag names (no + or |, no outer whitespace); a witness shows that a name with + breaks the round trip."
  },
  {
   "property": "C05",
   "status": "proved",
   "theorems": [
    "Makeshift.Props.C05_flags_to_string_fails_iff",
    "Makeshift.Props.C05_flags_to_string_zero",
    "Makeshift.Props.C05_flags_to_string_shape"
   ],
   "note": ""
  },
  {
   "property": "C06",
   "status": "proved",
   "theorems": [
    "Makeshift.Props.C06_parse_flags_denotation",
    "Makeshift.Props.C06_parse_flags_ok_iff",
    "Makeshift.Props.C06_parse_flags_within_defined",
    "Makeshift.Props.C06_parse_flags_order_independent"
   ],
   "note": ""
  },
  {
   "property": "C07",
   "status": "partial",
   "theorems": [
    "Makeshift.Props.C07_as_enum_failure",
    "Makeshift.Props.C07_as_flags_failure_partial",
    "Makeshift.Props.C07_as_flags_clobbers_on_bad_stream",
    "Makeshift.Props.C07_sequence_after_failure",
    "Makeshift.Props.C07_nothing_to_read"
   ],
   "note": "Full for as_enum. For as_flags proved on good streams only (_partial); on other streams the claim is false and the negation is proved (C07_as_flags_clobbers_on_bad_stream)."
  },
  {
   "property": "C08",
   "status": "proved",
   "theorems": [
    "Makeshift.Props.C08_as_enum_token",
    "Makeshift.Props.C08_split_exists"
   ],
   "note": ""
  },
  {
   "property": "C09",
   "status": "proved",
   "theorems": [
    "Makeshift.Props.C09_as_flags_token",
    "Makeshift.Props.C09_not_delimiters",
    "Makeshift.Props.C09_split_exists"
   ],
   "note": ""
  },
  {
   "property": "C10",
   "status": "proved",
   "theorems": [
    "Makeshift.Props.C10_enum_sequence_round_trip",
    "Makeshift.Props.C10_leading_vertical_tab_is_lost",
    "Makeshift.Props.C10_flags_sequence_round_trip"
   ],
   "note": "Names must not begin with a character skipped by std::ws; a witness shows the hypothesis is necessary. The reading and writing loops are client programs."
  },
  {
   "property": "C11",
   "status": "proved",
   "theorems": [
    "Makeshift.Props.C11_trim",
    "Makeshift.Props.C11_trim_idempotent",
    "Makeshift.Props.C11_trim_empty_iff"
   ],
   "note": ""
  },
  {
   "property": "C12",
   "status": "proved",
   "theorems": [
    "Makeshift.Props.C12_enum_name_validation",
    "Makeshift.Props.C12_flags_name_validation",
    "Makeshift.Props.C12_char_set",
    "Makeshift.Props.C12_forbidden_sets"
   ],
   "note": ""
  },
  {
   "property": "C13",
   "status": "proved",
   "theorems": [
    "Makeshift.Props.C13_flags_metadata_accepted_iff",
    "Makeshift.Props.C13_flags_metadata_partition"
   ],
   "note": ""
  },
  {
   "property": "C14",
   "status": "partial",
   "theorems": [
    "Makeshift.Props.C14_expand_general",
    "Makeshift.Props.C14_expand_integral_partial",
    "Makeshift.Props.C14_expand_narrow",
    "Makeshift.Props.C14_expand_misses_listed_value",
    "Makeshift.Props.C14_expand_ub"
   ],
   "note": "Full for types without integral representation and for integral types narrower than int. For wider integral types the claim is false in corner cases (negations C14_expand_misses_listed_value, C14_expand_ub); the _partial theorem states the exact proviso."
  },
  {
   "property": "C15",
   "status": "proved",
   "theorems": [
    "Makeshift.Props.C15_sorted_test",
    "Makeshift.Props.C15_binary_search_exact"
   ],
   "note": ""
  },
  {
   "property": "C16",
   "status": "partial",
   "theorems": [
    "Makeshift.Props.C16_contiguity_test_partial",
    "Makeshift.Props.C16_contiguous_lookup_exact_partial",
    "Makeshift.Props.C16_lookup_ub_iff",
    "Makeshift.Props.C16_difference_overflows",
    "Makeshift.Props.C16_wrapped_run_not_found",
    "Makeshift.Props.C16_max_before_end_rejected",
    "Makeshift.Props.C16_narrowing_finds_absent_value"
   ],
   "note": "False in general (negations C16_difference_overflows, C16_wrapped_run_not_found, C16_max_before_end_rejected, C16_narrowing_finds_absent_value); the _partial theorems state the proviso, C16_lookup_ub_iff characterises the undefined behaviour."
  },
  {
   "property": "C17",
   "status": "proved",
   "theorems": [
    "Makeshift.Props.C17_result_type",
    "Makeshift.Props.C17_compiles_iff",
    "Makeshift.Props.C17_transform",
    "Makeshift.Props.C17_valueless"
   ],
   "note": ""
  },
  {
   "property": "C18",
   "status": "proved",
   "theorems": [
    "Makeshift.Props.C18_enumerates_shape"
   ],
   "note": ""
  },
  {
   "property": "C19",
   "status": "proved",
   "theorems": [
    "Makeshift.Props.C19_result_type",
    "Makeshift.Props.C19_transform_many",
    "Makeshift.Props.C19_valueless_result"
   ],
   "note": ""
  },
  {
   "property": "C20",
   "status": "proved",
   "theorems": [
    "Makeshift.Props.C20_apply_permutation"
   ],
   "note": ""
  },
  {
   "property": "C21",
   "status": "proved",
   "theorems": [
    "Makeshift.Props.C21_apply_permutation_rejects",
    "Makeshift.Props.C21_too_few_indices_is_ub",
    "Makeshift.Props.C21_too_few",
    "Makeshift.Props.C21_too_few_permutation"
   ],
   "note": ""
  },
  {
   "property": "C22",
   "status": "proved",
   "theorems": [
    "Makeshift.Props.C22_apply_reverse_permutation"
   ],
   "note": ""
  },
  {
   "property": "C23",
   "status": "proved",
   "theorems": [
    "Makeshift.Props.C23_apply_reverse_permutation_rejects",
    "Makeshift.Props.C23_too_few",
    "Makeshift.Props.C23_too_few_permutation"
   ],
   "note": ""
  },
  {
   "property": "C24",
   "status": "proved",
   "theorems": [
    "Makeshift.Props.C24_cancel"
   ],
   "note": ""
  },
  {
   "property": "C25",
   "status": "proved",
   "theorems": [
    "Makeshift.Props.C25_shuffle_permutes",
    "Makeshift.Props.C25_shuffle_draws_used",
    "Makeshift.Props.C25_shuffle_injective",
    "Makeshift.Props.C25_shuffle_surjective"
   ],
   "note": ""
  },
  {
   "property": "C26",
   "status": "proved",
   "theorems": [
    "Makeshift.Props.C26_range_for",
    "Makeshift.Props.C26_tuples_unique",
    "Makeshift.Props.C26_loop_condition_ill_formed"
   ],
   "note": "Covers every mix of leaf kinds. Argument lists whose loop condition does not compile are excluded by LoopCompiles; C26_loop_condition_ill_formed shows the exclusion is exact. Loops carry a step bound; theorems hold for every bound above the length."
  },
  {
   "property": "C27",
   "status": "proved",
   "theorems": [
    "Makeshift.Props.C27_range_for_mismatch",
    "Makeshift.Props.C27_calls",
    "Makeshift.Props.C27_any_algorithm",
    "Makeshift.Props.C27_transform_reduce_mismatch",
    "Makeshift.Props.C27_count_if_mismatch"
   ],
   "note": "Memory safety: reads and moves outside a range are the distinct outcome ub, shown never to occur. Algorithms that return early may do so before the mismatch is seen."
  },
  {
   "property": "C28",
   "status": "proved",
   "theorems": [
    "Makeshift.Props.C28_merge_iff",
    "Makeshift.Props.C28_merge_value",
    "Makeshift.Props.C28_merge_kind",
    "Makeshift.Props.C28_order_independent",
    "Makeshift.Props.C28_static_rejection"
   ],
   "note": ""
  },
  {
   "property": "C29",
   "status": "proved",
   "theorems": [
    "Makeshift.Props.C29_walk_from_begin",
    "Makeshift.Props.C29_difference_and_comparison",
    "Makeshift.Props.C29_derived_operators",
    "Makeshift.Props.C29_iteration"
   ],
   "note": ""
  },
  {
   "property": "C30",
   "status": "partial",
   "theorems": [
    "Makeshift.Props.C30_walk_from_end_partial",
    "Makeshift.Props.C30_backward_is_undefined"
   ],
   "note": "Proved without sized non-contiguous ranges; with one, decrementing end() is shown to be undefined for all inputs (C30_backward_is_undefined)."
  },
  {
   "property": "C31",
   "status": "partial",
   "theorems": [
    "Makeshift.Props.C31_no_over_read_partial",
    "Makeshift.Props.C31_over_read",
    "Makeshift.Props.C31_sentinel_like_range_for",
    "Makeshift.Props.C31_sentinel_unsized"
   ],
   "note": "Proved for equal lengths; with a shorter unsized range the over-read is shown for all inputs (C31_over_read). range_zip_sentinel does not have the defect."
  },
  {
   "property": "C32",
   "status": "proved",
   "theorems": [
    "Makeshift.Props.C32_transform_reduce",
    "Makeshift.Props.C32_reduce"
   ],
   "note": ""
  },
  {
   "property": "C33",
   "status": "proved",
   "theorems": [
    "Makeshift.Props.C33_count_if",
    "Makeshift.Props.C33_any_of",
    "Makeshift.Props.C33_none_of",
    "Makeshift.Props.C33_all_of",
    "Makeshift.Props.C33_duality",
    "Makeshift.Props.C33_empty"
   ],
   "note": ""
  },
  {
   "property": "C34",
   "status": "proved",
   "theorems": [
    "Makeshift.Props.C34_iota_elements",
    "Makeshift.Props.C34_iota_returns_iff",
    "Makeshift.Props.C34_iota_integers",
    "Makeshift.Props.C34_iota_undefined",
    "Makeshift.Props.C34_iota_past_last",
    "Makeshift.Props.C34_iota_wraps",
    "Makeshift.Props.C34_fill",
    "Makeshift.Props.C34_generate"
   ],
   "note": ""
  },
  {
   "property": "C35",
   "status": "proved",
   "theorems": [
    "Makeshift.Props.C35_weakest_category",
    "Makeshift.Props.C35_no_ranges"
   ],
   "note": ""
  },
  {
   "property": "C36",
   "status": "proved",
   "theorems": [
    "Makeshift.Props.C36_enumerates",
    "Makeshift.Props.C36_enumerates_from_zero",
    "Makeshift.Props.C36_fails_iff",
    "Makeshift.Props.C36_walk",
    "Makeshift.Props.C36_compare",
    "Makeshift.Props.C36_distance_overflows"
   ],
   "note": ""
  },
  {
   "property": "C37",
   "status": "proved",
   "theorems": [
    "Makeshift.Props.C37_subscript",
    "Makeshift.Props.C37_static_subscript",
    "Makeshift.Props.C37_extent_check",
    "Makeshift.Props.C37_extent_check_too_late",
    "Makeshift.Props.C37_pair_unchecked",
    "Makeshift.Props.C37_reversed_pair"
   ],
   "note": ""
  },
  {
   "property": "C38",
   "status": "proved",
   "theorems": [
    "Makeshift.Props.C38_calls_exist",
    "Makeshift.Props.C38_template_for",
    "Makeshift.Props.C38_array_transform",
    "Makeshift.Props.C38_array_transform_pointwise",
    "Makeshift.Props.C38_tuple_transform",
    "Makeshift.Props.C38_tuple_transform_pointwise",
    "Makeshift.Props.C38_tuple_transform_order_unspecified"
   ],
   "note": "The result types of the functor are not modelled; tuple_transform's evaluation order is a parameter."
  },
  {
   "property": "C39",
   "status": "partial",
   "theorems": [
    "Makeshift.Props.C39_no_size",
    "Makeshift.Props.C39_no_size_transform",
    "Makeshift.Props.C39_explicit_size",
    "Makeshift.Props.C39_smaller_size_accepted",
    "Makeshift.Props.C39_size_agreement_partial"
   ],
   "note": "False as stated: an explicit N smaller than the tuple size is accepted (C39_smaller_size_accepted); C39_explicit_size gives the exact condition, C39_size_agreement_partial the claim for N not smaller than the smallest tuple. Without explicit N the claim holds (C39_no_size)."
  },
  {
   "property": "C40",
   "status": "proved",
   "theorems": [
    "Makeshift.Props.C40_transform_reduce",
    "Makeshift.Props.C40_reduce",
    "Makeshift.Props.C40_right_reduce",
    "Makeshift.Props.C40_all_of",
    "Makeshift.Props.C40_any_of",
    "Makeshift.Props.C40_none_of",
    "Makeshift.Props.C40_none_not_any",
    "Makeshift.Props.C40_any_not_all_not"
   ],
   "note": ""
  },
  {
   "property": "C41",
   "status": "proved",
   "theorems": [
    "Makeshift.Props.C41_cat",
    "Makeshift.Props.C41_positions"
   ],
   "note": ""
  },
  {
   "property": "C42",
   "status": "proved",
   "theorems": [
    "Makeshift.Props.C42_eq",
    "Makeshift.Props.C42_eq_iff_eq",
    "Makeshift.Props.C42_lt",
    "Makeshift.Props.C42_le",
    "Makeshift.Props.C42_strict_total_order",
    "Makeshift.Props.C42_le_iff",
    "Makeshift.Props.C42_element_types",
    "Makeshift.Props.C42_le_unordered"
   ],
   "note": "Elements of all positions share one type in the model; C42_element_types covers tuples with elements of different types, as a sum type."
  },
  {
   "property": "C43",
   "status": "partial",
   "theorems": [
    "Makeshift.Props.C43_ne_all_differ",
    "Makeshift.Props.C43_not_negation",
    "Makeshift.Props.C43_negation_iff",
    "Makeshift.Props.C43_negation_partial"
   ],
   "note": "False as stated (C43_not_negation); C43_negation_iff characterises exactly when it holds, C43_negation_partial is the one-element case."
  },
  {
   "property": "C44",
   "status": "proved",
   "theorems": [
    "Makeshift.Props.C44_iota_elements",
    "Makeshift.Props.C44_iota_returns_iff",
    "Makeshift.Props.C44_iota_integers",
    "Makeshift.Props.C44_iota_undefined",
    "Makeshift.Props.C44_iota_wraps",
    "Makeshift.Props.C44_iota_past_last",
    "Makeshift.Props.C44_fill"
   ],
   "note": ""
  },
  {
   "property": "C45",
   "status": "proved",
   "theorems": [
    "Makeshift.Props.C45_unique_sequence",
    "Makeshift.Props.C45_ordered_by_last_occurrence",
    "Makeshift.Props.C45_idempotent"
   ],
   "note": ""
  },
  {
   "property": "C46",
   "status": "proved",
   "theorems": [
    "Makeshift.Props.C46_type_pack_index",
    "Makeshift.Props.C46_type_pack_index_well_formed",
    "Makeshift.Props.C46_tuple_element_index",
    "Makeshift.Props.C46_first_tuple_element_index",
    "Makeshift.Props.C46_tuple_element_index_well_formed",
    "Makeshift.Props.C46_first_index_comment_is_wrong",
    "Makeshift.Props.C46_nth_type"
   ],
   "note": ""
  },
  {
   "property": "C47",
   "status": "partial",
   "theorems": [
    "Makeshift.Props.C47_type_sequence_cat",
    "Makeshift.Props.C47_filter_sequence",
    "Makeshift.Props.C47_is_in",
    "Makeshift.Props.C47_is_in_v_always_false",
    "Makeshift.Props.C47_is_in_v_agrees_only_if_absent",
    "Makeshift.Props.C47_equal_types"
   ],
   "note": "is_in_v is proved to ignore the list (C47_is_in_v_always_false); the rest of the claim is proved in full."
  },
  {
   "property": "C48",
   "status": "proved",
   "theorems": [
    "Makeshift.Props.C48_value",
    "Makeshift.Props.C48_value_extracted",
    "Makeshift.Props.C48_unaltered",
    "Makeshift.Props.C48_exists_iff",
    "Makeshift.Props.C48_is_constval",
    "Makeshift.Props.C48_get",
    "Makeshift.Props.C48_collapse",
    "Makeshift.Props.C48_not_representable"
   ],
   "note": ""
  },
  {
   "property": "C49",
   "status": "proved",
   "theorems": [
    "Makeshift.Props.C49_idempotent",
    "Makeshift.Props.C49_same_type_iff",
    "Makeshift.Props.C49_any_environment",
    "Makeshift.Props.C49_ref_constant",
    "Makeshift.Props.C49_get_tuple",
    "Makeshift.Props.C49_not_canonical_other",
    "Makeshift.Props.C49_not_canonical_by_hand"
   ],
   "note": ""
  },
  {
   "property": "C50",
   "status": "proved",
   "theorems": [
    "Makeshift.Props.C50_transform_constvals",
    "Makeshift.Props.C50_transform_values",
    "Makeshift.Props.C50_extend_constvals",
    "Makeshift.Props.C50_extend_values",
    "Makeshift.Props.C50_extract",
    "Makeshift.Props.C50_returned_objects",
    "Makeshift.Props.C50_functor_argument",
    "Makeshift.Props.C50_empty_argument"
   ],
   "note": ""
  },
  {
   "property": "C51",
   "status": "proved",
   "theorems": [
    "Makeshift.Props.C51_values",
    "Makeshift.Props.C51_aligned",
    "Makeshift.Props.C51_strings",
    "Makeshift.Props.C51_names",
    "Makeshift.Props.C51_descriptions",
    "Makeshift.Props.C51_missing_string",
    "Makeshift.Props.C51_no_table",
    "Makeshift.Props.C51_no_metadata",
    "Makeshift.Props.C51_search_by_name"
   ],
   "note": "For tables with at least one record; an empty table of type std::array may have no names. The comment in extract_value_metadata about types without values does not match the code (C51_no_table)."
  },
  {
   "property": "C52",
   "status": "proved",
   "theorems": [
    "Makeshift.Props.C52_extract",
    "Makeshift.Props.C52_extract_self",
    "Makeshift.Props.C52_extract_unavailable",
    "Makeshift.Props.C52_extract_no_match",
    "Makeshift.Props.C52_name",
    "Makeshift.Props.C52_description",
    "Makeshift.Props.C52_name_only",
    "Makeshift.Props.C52_extract_typed",
    "Makeshift.Props.C52_extract_typed_type",
    "Makeshift.Props.C52_extract_cstr_ill_formed"
   ],
   "note": ""
  },
  {
   "property": "C53",
   "status": "partial",
   "theorems": [
    "Makeshift.Props.C53_exclusive",
    "Makeshift.Props.C53_exclusive_descriptions",
    "Makeshift.Props.C53_exclusive_aligned",
    "Makeshift.Props.C53_find_exclusive",
    "Makeshift.Props.C53_members_order",
    "Makeshift.Props.C53_aligned_partial",
    "Makeshift.Props.C53_descriptions_partial",
    "Makeshift.Props.C53_find_partial",
    "Makeshift.Props.C53_deep_hierarchy",
    "Makeshift.Props.C53_empty_tuple_hides_members",
    "Makeshift.Props.C53_find_own",
    "Makeshift.Props.C53_find_first_partial"
   ],
   "note": "False in general: C53_deep_hierarchy is the witness (member_names covers direct bases only). C53_aligned_partial and C53_find_partial hold where no base class inherits members; own members and order of members are proved in full."
  },
  {
   "property": "C54",
   "status": "proved",
   "theorems": [
    "Makeshift.Props.C54_search_value",
    "Makeshift.Props.C54_search_value_by_name",
    "Makeshift.Props.C54_search_exclusive_member",
    "Makeshift.Props.C54_search_member",
    "Makeshift.Props.C54_find",
    "Makeshift.Props.C54_unavailable"
   ],
   "note": ""
  },
  {
   "property": "C55",
   "status": "proved",
   "theorems": [
    "Makeshift.Props.C55_refinement",
    "Makeshift.Props.C55_no_leak",
    "Makeshift.Props.C55_independent",
    "Makeshift.Props.C55_allocates_iff",
    "Makeshift.Props.C55_copy_assignable_iff"
   ],
   "note": "Scalar element type; the specification is a store of element lists without storage. Copy assignment of buffers which may use the heap does not compile (C55_copy_assignable_iff)."
  },
  {
   "property": "C56",
   "status": "partial",
   "theorems": [
    "Makeshift.Props.C56_value_initialised_partial",
    "Makeshift.Props.C56_uninitialised"
   ],
   "note": "False for dynamic extent with in-place storage: C56_uninitialised. C56_value_initialised_partial covers all other cases."
  },
  {
   "property": "C57",
   "status": "partial",
   "theorems": [
    "Makeshift.Props.C57_extent",
    "Makeshift.Props.C57_capacity_partial",
    "Makeshift.Props.C57_array_overflow"
   ],
   "note": "C57_extent is the full result for construction from an extent; C57_capacity_partial excludes construction from a too long array, which is undefined (C57_array_overflow)."
  },
  {
   "property": "C58",
   "status": "proved",
   "theorems": [
    "Makeshift.Props.C58_construct",
    "Makeshift.Props.C58_index",
    "Makeshift.Props.C58_subspan",
    "Makeshift.Props.C58_first_last",
    "Makeshift.Props.C58_first_npos",
    "Makeshift.Props.C58_compose",
    "Makeshift.Props.C58_iterators",
    "Makeshift.Props.C58_write_through_subspan"
   ],
   "note": "Sizes below 2^63. C58_first_npos is the exception for first()."
  },
  {
   "property": "C59",
   "status": "partial",
   "theorems": [
    "Makeshift.Props.C59_empty_inverted",
    "Makeshift.Props.C59_front_back_fail",
    "Makeshift.Props.C59_front_back_empty",
    "Makeshift.Props.C59_first_last_row_partial"
   ],
   "note": "False for every span: C59_empty_inverted, C59_front_back_fail, C59_front_back_empty. C59_first_last_row_partial is what can be relied upon."
  },
  {
   "property": "C60",
   "status": "proved",
   "theorems": [
    "Makeshift.Props.C60_assign_values",
    "Makeshift.Props.C60_assign_row",
    "Makeshift.Props.C60_assign_across",
    "Makeshift.Props.C60_swap_across",
    "Makeshift.Props.C60_swap",
    "Makeshift.Props.C60_apply_permutation",
    "Makeshift.Props.C60_apply_reverse_permutation",
    "Makeshift.Props.C60_rejects",
    "Makeshift.Props.C60_shuffle"
   ],
   "note": "Columns in different arrays. The permutation algorithms are modelled once more over an abstract swap and proved to simulate the list versions."
  },
  {
   "property": "C61",
   "status": "proved",
   "theorems": [
    "Makeshift.Props.C61_any",
    "Makeshift.Props.C61_none",
    "Makeshift.Props.C61_all",
    "Makeshift.Props.C61_accepts",
    "Makeshift.Props.C61_has_flag",
    "Makeshift.Props.C61_has_flag_rejects",
    "Makeshift.Props.C61_sign_bit"
   ],
   "note": "Flags values as bit vectors of any width; the audit check is an explicit parameter. C61_sign_bit is the witness for rejected sign-bit flags."
  },
  {
   "property": "C62",
   "status": "proved",
   "theorems": [
    "Makeshift.Props.C62_from_int",
    "Makeshift.Props.C62_from_wide_int",
    "Makeshift.Props.C62_from_type",
    "Makeshift.Props.C62_identifies",
    "Makeshift.Props.C62_round_trip",
    "Makeshift.Props.C62_default_values",
    "Makeshift.Props.C62_switch",
    "Makeshift.Props.C62_enumerators",
    "Makeshift.Props.C62_repeated",
    "Makeshift.Props.C62_limit"
   ],
   "note": "Types are elements of a type with decidable equality. C62_from_wide_int, C62_limit and C62_repeated document the deviations."
  },
  {
   "property": "C63",
   "status": "partial",
   "theorems": [
    "Makeshift.Props.C63_cast",
    "Makeshift.Props.C63_cast_ambiguous",
    "Makeshift.Props.C63_monostate_types",
    "Makeshift.Props.C63_optional_to_variant",
    "Makeshift.Props.C63_variant_to_optional",
    "Makeshift.Props.C63_round_trip_optional",
    "Makeshift.Props.C63_round_trip_variant",
    "Makeshift.Props.C63_second_monostate",
    "Makeshift.Props.C63_cat_partial",
    "Makeshift.Props.C63_cat_drops"
   ],
   "note": "variant_cat_t is right for at most two arguments only (C63_cat_partial); C63_cat_drops proves that further arguments are dropped. The conversions are proved in full."
  },
  {
   "property": "C64",
   "status": "partial",
   "theorems": [
    "Makeshift.Props.C64_types",
    "Makeshift.Props.C64_with_partial",
    "Makeshift.Props.C64_types_right_iff",
    "Makeshift.Props.C64_ill_formed",
    "Makeshift.Props.C64_lvalue",
    "Makeshift.Props.C64_documented_example",
    "Makeshift.Props.C64_with_type",
    "Makeshift.Props.C64_with_pred"
   ],
   "note": "False as stated: C64_lvalue (no lvalue is accepted), and C64_types_right_iff shows that for rvalues the result types are right iff all elements have the type of the replaced one; C64_with_partial proves the property there. with<T> and with(pred) are reduced to with<I> in full."
  },
  {
   "property": "C65",
   "status": "proved",
   "theorems": [
    "Makeshift.Props.C65_deterministic",
    "Makeshift.Props.C65_fixed_point",
    "Makeshift.Props.C65_computes",
    "Makeshift.Props.C65_total",
    "Makeshift.Props.C65_equals",
    "Makeshift.Props.C65_read_only"
   ],
   "note": "Functor bodies as programs that may call themselves and use the functor state; Runs is the meaning of the recursive function."
  },
  {
   "property": "C66",
   "status": "partial",
   "theorems": [
    "Makeshift.Props.C66_outcome",
    "Makeshift.Props.C66_checked_partial",
    "Makeshift.Props.C66_negative_throws"
   ],
   "note": "False for buffers which may use the heap: C66_negative_throws. C66_outcome determines the outcome in all cases."
  },
  {
   "property": "C67",
   "status": "partial",
   "theorems": [
    "Makeshift.Props.C67_dangling",
    "Makeshift.Props.C67_follows_assignment",
    "Makeshift.Props.C67_valid_partial"
   ],
   "note": "False: C67_dangling, C67_follows_assignment; C67_valid_partial is the part which holds."
  },
  {
   "property": "C68",
   "status": "partial",
   "theorems": [
    "Makeshift.Props.C68_const_overwritten",
    "Makeshift.Props.C68_swap_get_partial"
   ],
   "note": "False: C68_const_overwritten; C68_swap_get_partial is the part which holds."
  },
  {
   "property": "C69",
   "status": "partial",
   "theorems": [
    "Makeshift.Props.C69_single_ill_formed",
    "Makeshift.Props.C69_default_always",
    "Makeshift.Props.C69_lvalue",
    "Makeshift.Props.C69_same_type",
    "Makeshift.Props.C69_single_or_default_partial",
    "Makeshift.Props.C69_documented_example"
   ],
   "note": "False as stated (C69_lvalue, C69_single_ill_formed, C69_default_always); C69_single_or_default_partial covers rvalue tuples without a matching element."
  },
  {
   "property": "C70",
   "status": "partial",
   "theorems": [
    "Makeshift.Props.C70_trait_iff",
    "Makeshift.Props.C70_concept_never",
    "Makeshift.Props.C70_concept_needs_reference",
    "Makeshift.Props.C70_concept_iff",
    "Makeshift.Props.C70_mutable_accepted",
    "Makeshift.Props.C70_untagged_iff",
    "Makeshift.Props.C70_is_constval_partial",
    "Makeshift.Props.C70_constval_of",
    "Makeshift.Props.C70_tuple_like",
    "Makeshift.Props.C70_tuple_like_iff",
    "Makeshift.Props.C70_tuple_like_never"
   ],
   "note": "False as stated: C70_concept_never, C70_tuple_like_never. C70_trait_iff says exactly what the trait accepts; C70_is_constval_partial is the part which holds."
  },
  {
   "property": "C71",
   "status": "proved",
   "theorems": [
    "Makeshift.Props.C71_csize",
    "Makeshift.Props.C71_cssize",
    "Makeshift.Props.C71_cssize_narrow",
    "Makeshift.Props.C71_cssize_large"
   ],
   "note": "C71_cssize states the precondition; C71_cssize_large shows it is necessary."
  },
  {
   "property": "C72",
   "status": "partial",
   "theorems": [
    "Makeshift.Props.C72_refers",
    "Makeshift.Props.C72_assign_values",
    "Makeshift.Props.C72_assign_object",
    "Makeshift.Props.C72_equal",
    "Makeshift.Props.C72_self_assign",
    "Makeshift.Props.C72_by_name_partial",
    "Makeshift.Props.C72_by_name_first_partial",
    "Makeshift.Props.C72_by_name_missing",
    "Makeshift.Props.C72_by_name_deep",
    "Makeshift.Props.C72_no_swap",
    "Makeshift.Props.C72_duplicate"
   ],
   "note": "tie_members is proved in full. C72_by_name_partial holds for hierarchies of depth one; C72_by_name_deep, C72_duplicate and C72_no_swap are the witnesses for the false cases. The overloads with an explicit member list can never be called (C70_tuple_like_never)."
  },
  {
   "property": "C73",
   "status": "proved",
   "theorems": [
    "Makeshift.Props.C73_exact",
    "Makeshift.Props.C73_permutes",
    "Makeshift.Props.C73_one_too_many",
    "Makeshift.Props.C73_uint8_reversal"
   ],
   "note": "Refinement of the unbounded model: C73_exact transfers C20-C24. C73_one_too_many characterises the failing case; C73_uint8_reversal is a concrete instance."
  },
  {
   "property": "C74",
   "status": "partial",
   "theorems": [
    "Makeshift.Props.C74_rvalue_ref_fn",
    "Makeshift.Props.C74_lvalue_ref_fn",
    "Makeshift.Props.C74_lvalue_const_ref_fn_partial",
    "Makeshift.Props.C74_const_ref_accepts_rvalues",
    "Makeshift.Props.C74_forward_to"
   ],
   "note": "C74_const_ref_accepts_rvalues is the witness for the false part."
  },
  {
   "property": "C75",
   "status": "proved",
   "theorems": [
    "Makeshift.Props.C75_enum_compiles_iff",
    "Makeshift.Props.C75_no_table",
    "Makeshift.Props.C75_enum_to_string",
    "Makeshift.Props.C75_parse_enum",
    "Makeshift.Props.C75_enum_round_trip",
    "Makeshift.Props.C75_flags_compiles_iff",
    "Makeshift.Props.C75_flags_round_trip",
    "Makeshift.Props.C75_parse_flags",
    "Makeshift.Props.C75_flags_to_string"
   ],
   "note": "Composition of the metadata model with the serialisation model; the table is non-empty (for an empty one, see C51)."
  },
  {
   "property": "C76",
   "status": "partial",
   "theorems": [
    "Makeshift.Props.C76_element_type_partial",
    "Makeshift.Props.C76_tuple_args",
    "Makeshift.Props.C76_reference_results",
    "Makeshift.Props.C76_empty_tuple",
    "Makeshift.Props.C76_explicit_type",
    "Makeshift.Props.C76_tuple_transform",
    "Makeshift.Props.C76_array_cat",
    "Makeshift.Props.C76_array_but_not_tuple",
    "Makeshift.Props.C76_index_as_lvalue"
   ],
   "note": "False as stated: if any argument is a tuple (or tuple_index) the functor results are required to be identical but are not decayed, so functors that return references (or const values, in the element type) do not give the decayed type: references do not compile. Also range_index is typed as a const lvalue when deducing the element type although it is passed as a prvalue. Proved: exact characterisation for arrays (partial name), for arguments with a tuple, for explicit element types, tuple_transform and array_cat, plus the concrete counterexamples."
  },
  {
   "property": "C77",
   "status": "proved",
   "theorems": [
    "Makeshift.Props.C77_expand",
    "Makeshift.Props.C77_compiles_only",
    "Makeshift.Props.C77_dispatch",
    "Makeshift.Props.C77_dispatch_unsupported",
    "Makeshift.Props.C77_dispatch_transform",
    "Makeshift.Props.C77_metadata",
    "Makeshift.Props.C77_alias",
    "Makeshift.Props.C77_no_metadata",
    "Makeshift.Props.C77_bool"
   ],
   "note": "Proved under the provisos stated in the quantifier; C16 shows that they are needed."
  },
  {
   "property": "C78",
   "status": "partial",
   "theorems": [
    "Makeshift.Props.C78_insert_partial",
    "Makeshift.Props.C78_extract_partial",
    "Makeshift.Props.C78_only_lvalues",
    "Makeshift.Props.C78_deferred",
    "Makeshift.Props.C78_make",
    "Makeshift.Props.C78_dangling",
    "Makeshift.Props.C78_as_enum_dangling"
   ],
   "note": "False for as_enum and as_flags: the bound manipulator they return keeps a reference to a temporary manipulator which is destroyed by the return statement, so streaming it is undefined behaviour (C78_as_enum_dangling; harmless on common implementations because the stored lambdas are stateless). Proved for manipulators which are alive when streamed: C78_insert_partial, C78_extract_partial, C78_only_lvalues, C78_deferred; compile-time conditions: C78_make."
  },
  {
   "property": "C79",
   "status": "partial",
   "theorems": [
    "Makeshift.Props.C79_walk_partial",
    "Makeshift.Props.C79_deref",
    "Makeshift.Props.C79_compare",
    "Makeshift.Props.C79_advance_difference",
    "Makeshift.Props.C79_not_random_access"
   ],
   "note": "False as stated: default construction and -= are missing although iterator_concept is random_access_iterator_tag (C79_not_random_access). Everything else is proved."
  },
  {
   "property": "C80",
   "status": "partial",
   "theorems": [
    "Makeshift.Props.C80_bases",
    "Makeshift.Props.C80_members",
    "Makeshift.Props.C80_values",
    "Makeshift.Props.C80_unambiguous",
    "Makeshift.Props.C80_unavailable",
    "Makeshift.Props.C80_sound",
    "Makeshift.Props.C80_values_sound",
    "Makeshift.Props.C80_bases_complete_partial",
    "Makeshift.Props.C80_members_complete_partial",
    "Makeshift.Props.C80_values_complete_partial",
    "Makeshift.Props.C80_bases_dropped",
    "Makeshift.Props.C80_others_dropped"
   ],
   "note": "Which items are listed is characterised exactly for all metadata trees. Soundness holds always; completeness is proved where all items are part of one table or list with something else beside it and is false otherwise: a metadata tuple that consists only of the list of base classes is taken for a table with one record, so all but the first are lost; several items at the top level of the metadata, and tuples (rather than arrays) of values, lose all but the first; an empty tuple hides a list that follows it. A std::array of base or member records does not compile."
  },
  {
   "property": "C81",
   "status": "partial",
   "theorems": [
    "Makeshift.Props.C81_unqualified",
    "Makeshift.Props.C81_const_partial",
    "Makeshift.Props.C81_const_unavailable",
    "Makeshift.Props.C81_inconsistent",
    "Makeshift.Props.C81_generic_reflector"
   ],
   "note": "True for values, value_names, exclusive_members, exclusive_member_names, members, member_names, member_descriptions and is_available_for; false for name, description, bases, value_descriptions and exclusive_member_descriptions, which ask the reflector about T const and so find nothing with the default reflector, while is_available_for says that metadata is available."
  },
  {
   "property": "C82",
   "status": "partial",
   "theorems": [
    "Makeshift.Props.C82_make_array_iff",
    "Makeshift.Props.C82_make_array_value",
    "Makeshift.Props.C82_make_array_constvals",
    "Makeshift.Props.C82_make_tuple",
    "Makeshift.Props.C82_split_join_array_partial",
    "Makeshift.Props.C82_split_join_tuple_partial",
    "Makeshift.Props.C82_canonical",
    "Makeshift.Props.C82_deduced_iff",
    "Makeshift.Props.C82_deduced_copy",
    "Makeshift.Props.C82_other_elements"
   ],
   "note": "make_array_constant / make_tuple_constant / deduction; round trip for canonical element types, counterexample for others"
  },
  {
   "property": "C83",
   "status": "proved",
   "theorems": [
    "Makeshift.Props.C83_runs",
    "Makeshift.Props.C83_step",
    "Makeshift.Props.C83_strong",
    "Makeshift.Props.C83_throws_only_if",
    "Makeshift.Props.C83_balance",
    "Makeshift.Props.C83_no_leak",
    "Makeshift.Props.C83_assign_not_strong"
   ],
   "note": "element operations may throw at any point; strong guarantee for constructors, basic guarantee for assignments, with a witness that assignments have no strong guarantee"
  },
  {
   "property": "C84",
   "status": "partial",
   "theorems": [
    "Makeshift.Props.C84_get_partial",
    "Makeshift.Props.C84_get_lvalue",
    "Makeshift.Props.C84_get_rvalue_const",
    "Makeshift.Props.C84_bindings_partial",
    "Makeshift.Props.C84_bindings_std",
    "Makeshift.Props.C84_no_auto_binding",
    "Makeshift.Props.C84_construct_iff",
    "Makeshift.Props.C84_no_move_only",
    "Makeshift.Props.C84_construct_values",
    "Makeshift.Props.C84_deduce_partial",
    "Makeshift.Props.C84_deduce_single"
   ],
   "note": "false as stated: get of an rvalue yields a const lvalue and structured bindings by value do not compile, value_tuple{ value_tuple{...} } copies, move-only elements and rvalue references cannot be stored; the lvalue cases agree with std::tuple"
  },
  {
   "property": "C85",
   "status": "proved",
   "theorems": [
    "Makeshift.Props.C85_own_objects",
    "Makeshift.Props.C85_template_for",
    "Makeshift.Props.C85_array_transform",
    "Makeshift.Props.C85_tuple_transform",
    "Makeshift.Props.C85_transform_reduce",
    "Makeshift.Props.C85_reduce",
    "Makeshift.Props.C85_all_of",
    "Makeshift.Props.C85_any_of_none_of",
    "Makeshift.Props.C85_cat_iff",
    "Makeshift.Props.C85_cat",
    "Makeshift.Props.C85_array_cat",
    "Makeshift.Props.C85_cat_value_tuple"
   ],
   "note": "objects in a memory; the algorithms of C38 - C41 are run on references, whose value categories come from get; reducers return objects, not references"
  },
  {
   "property": "C86",
   "status": "partial",
   "theorems": [
    "Makeshift.Props.C86_transform_compiles_partial",
    "Makeshift.Props.C86_transform_const_rvalue",
    "Makeshift.Props.C86_transform",
    "Makeshift.Props.C86_transform_valueless",
    "Makeshift.Props.C86_many_calls_copy",
    "Makeshift.Props.C86_many_compiles_partial",
    "Makeshift.Props.C86_many_partial",
    "Makeshift.Props.C86_visit_compiles_partial",
    "Makeshift.Props.C86_visit_void",
    "Makeshift.Props.C86_visit",
    "Makeshift.Props.C86_visit_valueless",
    "Makeshift.Props.C86_transform_const_rvalue_witness",
    "Makeshift.Props.C86_many_mutable_witness",
    "Makeshift.Props.C86_many_overload_witness",
    "Makeshift.Props.C86_visit_void_witness"
   ],
   "note": "false as stated: const rvalue variants, pointers to members and visit<void> with results do not compile; variant_transform_many calls a const copy of the functor; otherwise as std::visit"
  },
  {
   "property": "C87",
   "status": "partial",
   "theorems": [
    "Makeshift.Props.C87_range",
    "Makeshift.Props.C87_construct",
    "Makeshift.Props.C87_make_range_partial",
    "Makeshift.Props.C87_make_range_extent",
    "Makeshift.Props.C87_make_range_pointers",
    "Makeshift.Props.C87_size_partial",
    "Makeshift.Props.C87_csize",
    "Makeshift.Props.C87_dynamic_rejected",
    "Makeshift.Props.C87_get",
    "Makeshift.Props.C87_get_type",
    "Makeshift.Props.C87_bindings_partial",
    "Makeshift.Props.C87_no_auto_binding"
   ],
   "note": "false as stated: make_range is ambiguous for most iterators and never accepts extents; ranges of dynamic extent with equal iterator types are rejected by csize and all algorithms; not all forms of structured bindings compile; in fact the algorithms which iterate several ranges in parallel accept no range at all (C108_range)"
  },
  {
   "property": "C88",
   "status": "partial",
   "theorems": [
    "Makeshift.Props.C88_insert_enum",
    "Makeshift.Props.C88_insert_flags",
    "Makeshift.Props.C88_extract_enum_partial",
    "Makeshift.Props.C88_extract_flags_partial",
    "Makeshift.Props.C88_eof_loses_value",
    "Makeshift.Props.C88_enum_table",
    "Makeshift.Props.C88_vertical_tab_fill",
    "Makeshift.Props.C88_flags_table"
   ],
   "note": "false as stated: with eofbit in the exception mask, a valid name at the very end of the input is lost, because peek() throws before the value is looked up"
  },
  {
   "property": "C89",
   "status": "partial",
   "theorems": [
    "Makeshift.Props.C89_for",
    "Makeshift.Props.C89_mismatch",
    "Makeshift.Props.C89_mismatch_calls",
    "Makeshift.Props.C89_elementwise",
    "Makeshift.Props.C89_transform_reduce_partial",
    "Makeshift.Props.C89_reduce_partial",
    "Makeshift.Props.C89_self_move",
    "Makeshift.Props.C89_count_if",
    "Makeshift.Props.C89_all_of",
    "Makeshift.Props.C89_any_of",
    "Makeshift.Props.C89_none_of",
    "Makeshift.Props.C89_fill",
    "Makeshift.Props.C89_generate",
    "Makeshift.Props.C89_iota"
   ],
   "note": "Partial only for the reductions: `result = reduce(std::move(result), ...)` assigns the result to itself as an rvalue if the reducer returns a reference to its first argument as an rvalue, which may lose the contents (C89_self_move)."
  },
  {
   "property": "C90",
   "status": "partial",
   "theorems": [
    "Makeshift.Props.C90_compiles_partial",
    "Makeshift.Props.C90_compiles_iff",
    "Makeshift.Props.C90_c_array",
    "Makeshift.Props.C90_initializer_list",
    "Makeshift.Props.C90_data_without_size",
    "Makeshift.Props.C90_iterators",
    "Makeshift.Props.C90_zip_partial",
    "Makeshift.Props.C90_zip_sentinel",
    "Makeshift.Props.C90_zip_temporary",
    "Makeshift.Props.C90_valid",
    "Makeshift.Props.C90_range_for"
   ],
   "note": "False as stated: C arrays, std::initializer_list and classes with data() but without size() are rejected (C90_c_array, C90_initializer_list, C90_data_without_size), as are classes whose begin() returns a reference, or whose iterators lack a category or a const operator * (C90_iterators); range_zip over a non-const temporary, or over an unsized range with a sentinel, cannot be iterated (C90_zip_partial, C90_zip_temporary). C90_compiles_iff says exactly which argument lists compile; C90_valid and C90_range_for connect types with the behaviour proved for C26."
  },
  {
   "property": "C91",
   "status": "partial",
   "theorems": [
    "Makeshift.Props.C91_invoke",
    "Makeshift.Props.C91_apply_partial",
    "Makeshift.Props.C91_value_tuple",
    "Makeshift.Props.C91_value_tuple_rvalue"
   ],
   "note": "False for value_tuple: elements of an rvalue value_tuple arrive as const lvalues (C91_value_tuple, C91_value_tuple_rvalue). Proved for std::tuple, std::pair, std::array, and value_tuple lvalues."
  },
  {
   "property": "C92",
   "status": "partial",
   "theorems": [
    "Makeshift.Props.C92_by_value",
    "Makeshift.Props.C92_is_available",
    "Makeshift.Props.C92_is_available_v_partial",
    "Makeshift.Props.C92_type_does_not_tell",
    "Makeshift.Props.C92_intermediate"
   ],
   "note": "The last part is false: queries with return type decltype(auto) return std::nullopt_t const, for which is_available_v is true (C92_type_does_not_tell). Proved for the queries which return auto."
  },
  {
   "property": "C93",
   "status": "partial",
   "theorems": [
    "Makeshift.Props.C93_expand_partial",
    "Makeshift.Props.C93_listed_partial",
    "Makeshift.Props.C93_finds_absent_value",
    "Makeshift.Props.C93_misses_listed_value",
    "Makeshift.Props.C93_conversion_finds_absent_value"
   ],
   "note": "False in general: C93_finds_absent_value, C93_misses_listed_value, C93_conversion_finds_absent_value. Proved if all listed values are representable in the type of the runtime value (C93_expand_partial); a listed value is found also otherwise unless a signed list meets an unsigned value which is not narrower (C93_listed_partial)."
  },
  {
   "property": "C94",
   "status": "proved",
   "theorems": [
    "Makeshift.Props.C94_get",
    "Makeshift.Props.C94_get_by_type",
    "Makeshift.Props.C94_round_trip",
    "Makeshift.Props.C94_deduction"
   ],
   "note": ""
  },
  {
   "property": "C95",
   "status": "partial",
   "theorems": [
    "Makeshift.Props.C95_call",
    "Makeshift.Props.C95_order",
    "Makeshift.Props.C95_nested",
    "Makeshift.Props.C95_twice",
    "Makeshift.Props.C95_compiles",
    "Makeshift.Props.C95_make_partial",
    "Makeshift.Props.C95_parentheses"
   ],
   "note": "The documented form with parentheses does not compile in C++17 (C95_parentheses); all else is proved for the form with braces."
  },
  {
   "property": "C96",
   "status": "partial",
   "theorems": [
    "Makeshift.Props.C96_make_buffer_partial",
    "Makeshift.Props.C96_derived_constant",
    "Makeshift.Props.C96_minus_one",
    "Makeshift.Props.C96_make_fixed_buffer",
    "Makeshift.Props.C96_make_fixed_buffer_max_partial",
    "Makeshift.Props.C96_derived_fixed",
    "Makeshift.Props.C96_static_check",
    "Makeshift.Props.C96_get",
    "Makeshift.Props.C96_get_type",
    "Makeshift.Props.C96_bindings_partial",
    "Makeshift.Props.C96_binding_type",
    "Makeshift.Props.C96_no_auto_binding",
    "Makeshift.Props.C96_iterate",
    "Makeshift.Props.C96_range_argument",
    "Makeshift.Props.C96_range_for"
   ],
   "note": "False in part: a size of a class derived from std::integral_constant is a constval but gives a dynamic extent (C96_derived_constant, C96_derived_fixed); the constant -1 is taken for a dynamic extent (C96_minus_one); `auto [a, b] = buf` does not compile (C96_no_auto_binding)."
  },
  {
   "property": "C97",
   "status": "partial",
   "theorems": [
    "Makeshift.Props.C97_ranges_partial",
    "Makeshift.Props.C97_unsized",
    "Makeshift.Props.C97_ranges_negated",
    "Makeshift.Props.C97_expand",
    "Makeshift.Props.C97_shuffle_partial",
    "Makeshift.Props.C97_permutation_partial",
    "Makeshift.Props.C97_reverse_partial",
    "Makeshift.Props.C97_swap_negated"
   ],
   "note": "False in part: if no range knows its size, no call of a range algorithm is a constant expression (C97_unsized, C97_ranges_negated); expand, try_expand and expand_failfast never are (C97_expand); shuffle and apply_permutation with std::swap in C++17 only if nothing is swapped, apply_reverse_permutation in C++17 even with a constexpr swap of the elements (C97_swap_negated). Proved where the size of some range is known and where the swaps are constexpr."
  },
  {
   "property": "C98",
   "status": "partial",
   "theorems": [
    "Makeshift.Props.C98_enum_iff",
    "Makeshift.Props.C98_class_iff",
    "Makeshift.Props.C98_integer_iff",
    "Makeshift.Props.C98_operators_do_not_suffice",
    "Makeshift.Props.C98_promotion",
    "Makeshift.Props.C98_bitmask_has_operators",
    "Makeshift.Props.C98_predicates_partial",
    "Makeshift.Props.C98_rejected",
    "Makeshift.Props.C98_has_flag_integer",
    "Makeshift.Props.C98_predicates_class",
    "Makeshift.Props.C98_concept_partial",
    "Makeshift.Props.C98_concept_iff",
    "Makeshift.Props.C98_concept_differs"
   ],
   "note": "False in part: integers narrower than int, bool and unscoped enumerations without operators have the operations but are no bitmask types, as the results are promoted (C98_operators_do_not_suffice, C98_integer_iff); int and wider integers are bitmask types for which all predicates except has_flag can be called (C98_has_flag_integer). Proved for enumerations; exact characterisations for all types. The concept agrees unless operators distinguish const and non-const operands (C98_concept_partial, C98_concept_differs)."
  },
  {
   "property": "C99",
   "status": "partial",
   "theorems": [
    "Makeshift.Props.C99_soa_partial",
    "Makeshift.Props.C99_soa_terminates",
    "Makeshift.Props.C99_soa_negated",
    "Makeshift.Props.C99_range_partial",
    "Makeshift.Props.C99_range_terminates",
    "Makeshift.Props.C99_static_range_partial",
    "Makeshift.Props.C99_range_for_partial",
    "Makeshift.Props.C99_size_terminates",
    "Makeshift.Props.C99_tuple_partial",
    "Makeshift.Props.C99_get_terminates",
    "Makeshift.Props.C99_with_partial"
   ],
   "note": "Holds for functors and for the constructors of the elements of with<>(). False for assignment, swap and conversion to a tuple of soa_reference, size(), end() and operator [] of range<>, size() of ranges and get<> of tuples: these are called from functions declared noexcept, so that an exception terminates the program - after the columns or indices before have already been modified. The partial theorems assume that these do not throw. Only range_for is modelled among the range algorithms; the others determine the sizes in the same way."
  },
  {
   "property": "C100",
   "status": "proved",
   "theorems": [
    "Makeshift.Props.C100_apply_permutation",
    "Makeshift.Props.C100_apply_reverse_permutation",
    "Makeshift.Props.C100_minimal",
    "Makeshift.Props.C100_shuffle"
   ],
   "note": "Index type unbounded as in C20 - C24 (see C73 for narrow index types)."
  },
  {
   "property": "C101",
   "status": "proved",
   "theorems": [
    "Makeshift.Props.C101_result",
    "Makeshift.Props.C101_sorted",
    "Makeshift.Props.C101_logarithmic",
    "Makeshift.Props.C101_bound_nearly_attained",
    "Makeshift.Props.C101_unsorted",
    "Makeshift.Props.C101_contiguous",
    "Makeshift.Props.C101_integral"
   ],
   "note": "The tests for sorted and contiguous lists are evaluated by the compiler and not counted."
  },
  {
   "property": "C102",
   "status": "partial",
   "theorems": [
    "Makeshift.Props.C102_reverse_resumes",
    "Makeshift.Props.C102_reverse_retry",
    "Makeshift.Props.C102_forward_partial",
    "Makeshift.Props.C102_forward_negated",
    "Makeshift.Props.C102_enough_calls",
    "Makeshift.Props.C102_shuffle"
   ],
   "note": "False for apply_permutation: an exception within a cycle, after its first swap, leaves an index array that is not a permutation, and another call fails fast (C102_forward_negated). True for apply_reverse_permutation, for any number of interruptions. Index type unbounded as in C20 - C24."
  },
  {
   "property": "C103",
   "status": "partial",
   "theorems": [
    "Makeshift.Props.C103_columns",
    "Makeshift.Props.C103_reassemble",
    "Makeshift.Props.C103_subspan",
    "Makeshift.Props.C103_elements",
    "Makeshift.Props.C103_write",
    "Makeshift.Props.C103_conversion",
    "Makeshift.Props.C103_to_const_iterator_partial",
    "Makeshift.Props.C103_to_const_iterator_negated",
    "Makeshift.Props.C103_keeps_const",
    "Makeshift.Props.C103_to_const_reference_negated",
    "Makeshift.Props.C103_value_type"
   ],
   "note": "False for spans with some, but not all, columns const (soa_span<int, double const>): iterator does not convert to const_iterator (C103_to_const_iterator_negated gives the exact condition). References convert to const_references only if they are the same type (C103_to_const_reference_negated). The rest is proved."
  },
  {
   "property": "C104",
   "status": "proved",
   "theorems": [
    "Makeshift.Props.C104_type",
    "Makeshift.Props.C104_count",
    "Makeshift.Props.C104_element",
    "Makeshift.Props.C104_slice",
    "Makeshift.Props.C104_bijection",
    "Makeshift.Props.C104_order",
    "Makeshift.Props.C104_write",
    "Makeshift.Props.C104_compare"
   ],
   "note": "The layout of std::array (its elements, one after another) is part of the model's assumptions."
  },
  {
   "property": "C105",
   "status": "partial",
   "theorems": [
    "Makeshift.Props.C105_to_stream_partial",
    "Makeshift.Props.C105_to_stream_negated",
    "Makeshift.Props.C105_from_stream_partial",
    "Makeshift.Props.C105_from_stream_negated",
    "Makeshift.Props.C105_fixed_type",
    "Makeshift.Props.C105_sfinae"
   ],
   "note": "False: neither function object accepts the manipulators of this library (as_enum(x), as_flags(x)), whose operators take rvalues only, nor names such as std::endl; to_stream always calls the operator for const lvalues; from_stream does not accept rvalues. Proved for the remaining arguments."
  },
  {
   "property": "C106",
   "status": "partial",
   "theorems": [
    "Makeshift.Props.C106_constant",
    "Makeshift.Props.C106_runtime_partial",
    "Makeshift.Props.C106_runtime_negated"
   ],
   "note": "False at run time for functors which use std::is_constant_evaluated() directly or indirectly: the size is that of the constant evaluation, so that a longer range is written past the end of the array, and a shorter one is padded. Proved in constant expressions, and for the other functors."
  },
  {
   "property": "C107",
   "status": "proved",
   "theorems": [
    "Makeshift.Props.C107_walk",
    "Makeshift.Props.C107_access",
    "Makeshift.Props.C107_concept",
    "Makeshift.Props.C107_const",
    "Makeshift.Props.C107_default",
    "Makeshift.Props.C107_next",
    "Makeshift.Props.C107_prev_negated",
    "Makeshift.Props.C107_distance",
    "Makeshift.Props.C107_reverse",
    "Makeshift.Props.C107_reverse_behind"
   ],
   "note": ""
  },
  {
   "property": "C108",
   "status": "partial",
   "theorems": [
    "Makeshift.Props.C108_index_range_elems",
    "Makeshift.Props.C108_index_range_partial",
    "Makeshift.Props.C108_range",
    "Makeshift.Props.C108_zip",
    "Makeshift.Props.C108_soa",
    "Makeshift.Props.C108_zip_of",
    "Makeshift.Props.C108_index_range_unchecked",
    "Makeshift.Props.C108_soa_negated",
    "Makeshift.Props.C108_soa_with_container"
   ],
   "note": "False as stated: no range (C108_range) and no result of range_zip or range_zip_sentinel (C108_zip) is accepted; an SoA span is taken to have as many rows as it has columns, so that rows are left out or the behaviour is undefined (C108_soa, C108_soa_negated), and together with a container of as many elements the program is terminated (C108_soa_with_container). Proved for index_range, with any other arguments; for buffers see C96_range_for."
  },
  {
   "property": "C109",
   "status": "proved",
   "theorems": [
    "Makeshift.Props.C109_advance",
    "Makeshift.Props.C109_advance_undefined",
    "Makeshift.Props.C109_distance",
    "Makeshift.Props.C109_prev_end",
    "Makeshift.Props.C109_prev_end_undefined",
    "Makeshift.Props.C109_reverse",
    "Makeshift.Props.C109_reverse_mismatch",
    "Makeshift.Props.C109_reverse_undefined",
    "Makeshift.Props.C109_subscript",
    "Makeshift.Props.C109_concept",
    "Makeshift.Props.C109_const"
   ],
   "note": ""
  },
  {
   "property": "C110",
   "status": "proved",
   "theorems": [
    "Makeshift.Props.C110_value",
    "Makeshift.Props.C110_is_constval",
    "Makeshift.Props.C110_exists",
    "Makeshift.Props.C110_canonical",
    "Makeshift.Props.C110_reference_type",
    "Makeshift.Props.C110_const_type",
    "Makeshift.Props.C110_const_get",
    "Makeshift.Props.C110_reference_get",
    "Makeshift.Props.C110_transform",
    "Makeshift.Props.C110_reference_object",
    "Makeshift.Props.C110_value_object",
    "Makeshift.Props.C110_of_constval",
    "Makeshift.Props.C110_const"
   ],
   "note": ""
  },
  {
   "property": "C111",
   "status": "partial",
   "theorems": [
    "Makeshift.Props.C111_no_fault",
    "Makeshift.Props.C111_classic_split",
    "Makeshift.Props.C111_split_exists",
    "Makeshift.Props.C111_fault_after_token",
    "Makeshift.Props.C111_enum_fault_partial",
    "Makeshift.Props.C111_enum_truncated",
    "Makeshift.Props.C111_flags_fault_partial",
    "Makeshift.Props.C111_flags_truncated",
    "Makeshift.Props.C111_flags_cleared",
    "Makeshift.Props.C111_not_good",
    "Makeshift.Props.C111_locale_enum",
    "Makeshift.Props.C111_locale_flags",
    "Makeshift.Props.C111_locale_round_trip",
    "Makeshift.Props.C111_locale_leading_blank",
    "Makeshift.Props.C111_locale_no_separator"
   ],
   "note": "C111_enum_truncated, C111_flags_truncated and C111_flags_cleared show where the claim is false: a cut-off name that is a name too is stored in the target of a failed extraction."
  },
  {
   "property": "C112",
   "status": "partial",
   "theorems": [
    "Makeshift.Props.C112_enum",
    "Makeshift.Props.C112_prints",
    "Makeshift.Props.C112_flags_partial",
    "Makeshift.Props.C112_flags_combination",
    "Makeshift.Props.C112_flags_negated"
   ],
   "note": "C112_flags_combination: every combination that is not itself declared fails; C112_flags_negated is a concrete instance."
  },
  {
   "property": "C113",
   "status": "partial",
   "theorems": [
    "Makeshift.Props.C113_forward_partial",
    "Makeshift.Props.C113_reverse_partial",
    "Makeshift.Props.C113_reverse_any",
    "Makeshift.Props.C113_negated"
   ],
   "note": "Proved for the identity only, which is where the claim holds (C113_forward_partial, C113_reverse_partial describe all other cases, too); C113_negated."
  },
  {
   "property": "C114",
   "status": "proved",
   "theorems": [
    "Makeshift.Props.C114_assign",
    "Makeshift.Props.C114_swap",
    "Makeshift.Props.C114_value_type",
    "Makeshift.Props.C114_auto_negated",
    "Makeshift.Props.C114_same_range_twice",
    "Makeshift.Props.C114_apply_permutation",
    "Makeshift.Props.C114_apply_reverse_permutation",
    "Makeshift.Props.C114_shuffle",
    "Makeshift.Props.C114_does_not_compile"
   ],
   "note": "C114_auto_negated, C114_same_range_twice and C114_does_not_compile are the negative parts of the statement."
  },
  {
   "property": "C115",
   "status": "partial",
   "theorems": [
    "Makeshift.Props.C115_safe",
    "Makeshift.Props.C115_expand_partial",
    "Makeshift.Props.C115_first_match",
    "Makeshift.Props.C115_unlisted_accepted",
    "Makeshift.Props.C115_listed_mistaken",
    "Makeshift.Props.C115_listed_refused",
    "Makeshift.Props.C115_incomparable_accepted",
    "Makeshift.Props.C115_nan_accepted",
    "Makeshift.Props.C115_nan_listed"
   ],
   "note": "C115_safe is the first sentence. The second sentence is proved (C115_expand_partial) for types without <, for lists that are not sorted, and for a < that is a strict weak order whose equivalence is ==; it is false otherwise, as binary search takes two values to be equal if neither is less: C115_unlisted_accepted, C115_listed_mistaken and C115_listed_refused (weak order coarser than ==), C115_incomparable_accepted (partial order), C115_nan_accepted and C115_nan_listed (floating point)."
  },
  {
   "property": "C116",
   "status": "proved",
   "theorems": [
    "Makeshift.Props.C116_wide",
    "Makeshift.Props.C116_unsigned",
    "Makeshift.Props.C116_unsigned_narrow",
    "Makeshift.Props.C116_signed_narrow",
    "Makeshift.Props.C116_undefined"
   ],
   "note": "C116_unsigned_narrow and C116_signed_narrow are the negative parts of the statement."
  },
  {
   "property": "C117",
   "status": "proved",
   "theorems": [
    "Makeshift.Props.C117_values_do_not_matter",
    "Makeshift.Props.C117_compose",
    "Makeshift.Props.C117_compose_reverse",
    "Makeshift.Props.C117_inverse"
   ],
   "note": ""
  },
  {
   "property": "C118",
   "status": "proved",
   "theorems": [
    "Makeshift.Props.C118_concat",
    "Makeshift.Props.C118_concat_blank",
    "Makeshift.Props.C118_texts",
    "Makeshift.Props.C118_empty_first"
   ],
   "note": ""
  },
  {
   "property": "C119",
   "status": "proved",
   "theorems": [
    "Makeshift.Props.C119_order",
    "Makeshift.Props.C119_order_unique",
    "Makeshift.Props.C119_compose",
    "Makeshift.Props.C119_identity",
    "Makeshift.Props.C119_many_unit_left",
    "Makeshift.Props.C119_many_unit_right",
    "Makeshift.Props.C119_many_assoc",
    "Makeshift.Props.C119_transform_as_many"
   ],
   "note": ""
  },
  {
   "property": "C120",
   "status": "proved",
   "theorems": [
    "Makeshift.Props.C120_extract_transform",
    "Makeshift.Props.C120_result_as_argument",
    "Makeshift.Props.C120_compose",
    "Makeshift.Props.C120_compose_objects",
    "Makeshift.Props.C120_compose_other_types",
    "Makeshift.Props.C120_identity",
    "Makeshift.Props.C120_extend_extracting"
   ],
   "note": ""
  },
  {
   "property": "C121",
   "status": "proved",
   "theorems": [
    "Makeshift.Props.C121_for",
    "Makeshift.Props.C121_transform_reduce",
    "Makeshift.Props.C121_quantifiers"
   ],
   "note": ""
  },
  {
   "property": "C122",
   "status": "proved",
   "theorems": [
    "Makeshift.Props.C122_refines",
    "Makeshift.Props.C122_checked",
    "Makeshift.Props.C122_layout",
    "Makeshift.Props.C122_sort",
    "Makeshift.Props.C122_auto_negated"
   ],
   "note": ""
  },
  {
   "property": "C123",
   "status": "proved",
   "theorems": [
    "Makeshift.Props.C123_refines",
    "Makeshift.Props.C123_sort",
    "Makeshift.Props.C123_zip_or_soa"
   ],
   "note": ""
  },
  {
   "property": "C124",
   "status": "proved",
   "theorems": [
    "Makeshift.Props.C124_selected_iff",
    "Makeshift.Props.C124_only_viable",
    "Makeshift.Props.C124_kept_iff",
    "Makeshift.Props.C124_user_conversion_ill_formed",
    "Makeshift.Props.C124_forwarded",
    "Makeshift.Props.C124_ellipsis_fallback"
   ],
   "note": ""
  },
  {
   "property": "C125",
   "status": "proved",
   "theorems": [
    "Makeshift.Props.C125_classified",
    "Makeshift.Props.C125_ambiguous_base",
    "Makeshift.Props.C125_convertible",
    "Makeshift.Props.C125_common_tag",
    "Makeshift.Props.C125_well_formed",
    "Makeshift.Props.C125_zip_classified",
    "Makeshift.Props.C125_nested"
   ],
   "note": ""
  },
  {
   "property": "C126",
   "status": "partial",
   "theorems": [
    "Makeshift.Props.C126_as_container",
    "Makeshift.Props.C126_read",
    "Makeshift.Props.C126_algorithms",
    "Makeshift.Props.C126_any_of_read",
    "Makeshift.Props.C126_groups",
    "Makeshift.Props.C126_reduce",
    "Makeshift.Props.C126_zip_sentinel",
    "Makeshift.Props.C126_zip_partial",
    "Makeshift.Props.C126_zip_skips",
    "Makeshift.Props.C126_zip_negated"
   ],
   "note": ""
  },
  {
   "property": "C127",
   "status": "proved",
   "theorems": [
    "Makeshift.Props.C127_by_size",
    "Makeshift.Props.C127_sizes_differ",
    "Makeshift.Props.C127_zip",
    "Makeshift.Props.C127_follow",
    "Makeshift.Props.C127_erasing",
    "Makeshift.Props.C127_endless",
    "Makeshift.Props.C127_reduce_list",
    "Makeshift.Props.C127_reduce_differs_negated",
    "Makeshift.Props.C127_reduce_vector",
    "Makeshift.Props.C127_reduce_vector_grown",
    "Makeshift.Props.C127_moved",
    "Makeshift.Props.C127_list_erased",
    "Makeshift.Props.C127_shrunk_negated",
    "Makeshift.Props.C127_list",
    "Makeshift.Props.C127_vector",
    "Makeshift.Props.C127_reduce_vector_exact",
    "Makeshift.Props.C127_unsized_short"
   ],
   "note": ""
  },
  {
   "property": "C128",
   "status": "proved",
   "theorems": [
    "Makeshift.Props.C128_fill_stable",
    "Makeshift.Props.C128_fill_element",
    "Makeshift.Props.C128_fill_converting",
    "Makeshift.Props.C128_fill_equal_negated",
    "Makeshift.Props.C128_iota_element",
    "Makeshift.Props.C128_generate_reads",
    "Makeshift.Props.C128_generate_recurrence",
    "Makeshift.Props.C128_generate_parts"
   ],
   "note": ""
  },
  {
   "property": "C129",
   "status": "proved",
   "theorems": [
    "Makeshift.Props.C129_kinds",
    "Makeshift.Props.C129_arguments",
    "Makeshift.Props.C129_reduce_parts",
    "Makeshift.Props.C129_predicate_parts",
    "Makeshift.Props.C129_index_parts_negated",
    "Makeshift.Props.C129_predicate_reordered",
    "Makeshift.Props.C129_reduce_reordered"
   ],
   "note": ""
  },
  {
   "property": "C130",
   "status": "proved",
   "theorems": [
    "Makeshift.Props.C130_cat_nested",
    "Makeshift.Props.C130_for_cat",
    "Makeshift.Props.C130_transform_cat",
    "Makeshift.Props.C130_tuple_transform_cat",
    "Makeshift.Props.C130_reduce_cat",
    "Makeshift.Props.C130_all_of_cat",
    "Makeshift.Props.C130_any_of_cat",
    "Makeshift.Props.C130_index_cat_negated",
    "Makeshift.Props.C130_transform_transform",
    "Makeshift.Props.C130_reduce_transform",
    "Makeshift.Props.C130_reduce_transform_effects_negated",
    "Makeshift.Props.C130_arguments",
    "Makeshift.Props.C130_arguments_reduce",
    "Makeshift.Props.C130_arguments_predicates",
    "Makeshift.Props.C130_arguments_tuple"
   ],
   "note": ""
  },
  {
   "property": "C131",
   "status": "partial",
   "theorems": [
    "Makeshift.Props.C131_selected",
    "Makeshift.Props.C131_exchanges_partial",
    "Makeshift.Props.C131_iter_swap",
    "Makeshift.Props.C131_row_lost",
    "Makeshift.Props.C131_exchanges_negated",
    "Makeshift.Props.C131_ranges_swap",
    "Makeshift.Props.C131_by_value"
   ],
   "note": "False as stated: C131_row_lost, C131_exchanges_negated. C131_exchanges_partial covers all other cases."
  },
  {
   "property": "C132",
   "status": "proved",
   "theorems": [
    "Makeshift.Props.C132_relevant",
    "Makeshift.Props.C132_own",
    "Makeshift.Props.C132_friend",
    "Makeshift.Props.C132_unavailable",
    "Makeshift.Props.C132_elsewhere",
    "Makeshift.Props.C132_other_types",
    "Makeshift.Props.C132_own_negated",
    "Makeshift.Props.C132_fundamental",
    "Makeshift.Props.C132_template",
    "Makeshift.Props.C132_every",
    "Makeshift.Props.C132_ambiguous",
    "Makeshift.Props.C132_converting",
    "Makeshift.Props.C132_ellipsis",
    "Makeshift.Props.C132_agree",
    "Makeshift.Props.C132_late",
    "Makeshift.Props.C132_missing"
   ],
   "note": ""
  },
  {
   "property": "C133",
   "status": "proved",
   "theorems": [
    "Makeshift.Props.C133_prefix",
    "Makeshift.Props.C133_no_fault",
    "Makeshift.Props.C133_unlisted",
    "Makeshift.Props.C133_enum_sequence",
    "Makeshift.Props.C133_enum_wrong_value",
    "Makeshift.Props.C133_flags_subset",
    "Makeshift.Props.C133_flags_undetected",
    "Makeshift.Props.C133_flags_wrong_value",
    "Makeshift.Props.C133_flags_sequence"
   ],
   "note": ""
  },
  {
   "property": "C134",
   "status": "proved",
   "theorems": [
    "Makeshift.Props.C134_iterator",
    "Makeshift.Props.C134_outlives",
    "Makeshift.Props.C134_each",
    "Makeshift.Props.C134_size",
    "Makeshift.Props.C134_mismatch",
    "Makeshift.Props.C134_array",
    "Makeshift.Props.C134_copy",
    "Makeshift.Props.C134_reference",
    "Makeshift.Props.C134_argument",
    "Makeshift.Props.C134_array_dangling",
    "Makeshift.Props.C134_argument_gone",
    "Makeshift.Props.C134_dangling",
    "Makeshift.Props.C134_views",
    "Makeshift.Props.C134_checks",
    "Makeshift.Props.C134_unset",
    "Makeshift.Props.C134_zip_argument",
    "Makeshift.Props.C134_rejected"
   ],
   "note": ""
  },
  {
   "property": "C135",
   "status": "proved",
   "theorems": [
    "Makeshift.Props.C135_enum",
    "Makeshift.Props.C135_enum_all_iff",
    "Makeshift.Props.C135_enum_grown",
    "Makeshift.Props.C135_enum_grown_needs_distinct_names",
    "Makeshift.Props.C135_enum_appended",
    "Makeshift.Props.C135_enum_alias_in_front",
    "Makeshift.Props.C135_flags",
    "Makeshift.Props.C135_flags_grown",
    "Makeshift.Props.C135_flags_grown_needs_distinct_names",
    "Makeshift.Props.C135_flags_shrunk",
    "Makeshift.Props.C135_flags_composite"
   ],
   "note": ""
  },
  {
   "property": "C136",
   "status": "partial",
   "theorems": [
    "Makeshift.Props.C136_save_load",
    "Makeshift.Props.C136_named_partial",
    "Makeshift.Props.C136_any_text",
    "Makeshift.Props.C136_unknown_key",
    "Makeshift.Props.C136_bad_value",
    "Makeshift.Props.C136_cut_off_partial",
    "Makeshift.Props.C136_save_fails",
    "Makeshift.Props.C136_deep",
    "Makeshift.Props.C136_same_name"
   ],
   "note": "C136_named_partial holds where no base class inherits members; C136_deep is the witness for the false case. C136_cut_off_partial: text which ends early; members of flags types lose their value then, which the full claim excludes. All other theorems hold for every hierarchy."
  },
  {
   "property": "C137",
   "status": "partial",
   "theorems": [
    "Makeshift.Props.C137_range_exact",
    "Makeshift.Props.C137_range_unsigned",
    "Makeshift.Props.C137_range_signed",
    "Makeshift.Props.C137_narrow_sum",
    "Makeshift.Props.C137_narrow_product",
    "Makeshift.Props.C137_range_transform",
    "Makeshift.Props.C137_template_type",
    "Makeshift.Props.C137_template_exact",
    "Makeshift.Props.C137_template_modular",
    "Makeshift.Props.C137_template_steps",
    "Makeshift.Props.C137_template_transform",
    "Makeshift.Props.C137_template_is_range",
    "Makeshift.Props.C137_agree",
    "Makeshift.Props.C137_converted_partial",
    "Makeshift.Props.C137_differ"
   ],
   "note": "The agreement of the two families is false in general (C137_differ); C137_agree and C137_converted_partial are what holds."
  },
  {
   "property": "C138",
   "status": "proved",
   "theorems": [
    "Makeshift.Props.C138_sorted",
    "Makeshift.Props.C138_stable",
    "Makeshift.Props.C138_stable_unique",
    "Makeshift.Props.C138_already_sorted",
    "Makeshift.Props.C138_in_step",
    "Makeshift.Props.C138_no_copy",
    "Makeshift.Props.C138_no_copy_negated",
    "Makeshift.Props.C138_undo",
    "Makeshift.Props.C138_one_too_many",
    "Makeshift.Props.C138_one_too_many_unsorted",
    "Makeshift.Props.C138_signed_overflow",
    "Makeshift.Props.C138_narrow_overflow",
    "Makeshift.Props.C138_unsigned_overflow",
    "Makeshift.Props.C138_more_indices",
    "Makeshift.Props.C138_fewer_indices"
   ],
   "note": "Copies are needed: apply_permutation consumes the indices: further arrays are left unchanged (C138_no_copy, C138_no_copy_negated). With one row more than the index type can represent nothing is sorted, silently (C138_one_too_many, C138_one_too_many_unsorted); beyond that, or if the numbers of indices and rows differ, the behaviour is as in the remaining theorems."
  },
  {
   "property": "C139",
   "status": "proved",
   "theorems": [
    "Makeshift.Props.C139_same",
    "Makeshift.Props.C139_uniform",
    "Makeshift.Props.C139_one_too_many",
    "Makeshift.Props.C139_undo"
   ],
   "note": "With one row more than an unsigned or narrow index type can represent, nothing is shuffled, silently (C139_one_too_many)."
  },
  {
   "property": "C140",
   "status": "proved",
   "theorems": [
    "Makeshift.Props.C140_soa",
    "Makeshift.Props.C140_zip",
    "Makeshift.Props.C140_keeps",
    "Makeshift.Props.C140_take_keeps",
    "Makeshift.Props.C140_element",
    "Makeshift.Props.C140_sort",
    "Makeshift.Props.C140_move_only",
    "Makeshift.Props.C140_move_only_sort",
    "Makeshift.Props.C140_move_only_negated"
   ],
   "note": "C140_move_only_negated is a negative part of the statement."
  },
  {
   "property": "C141",
   "status": "proved",
   "theorems": [
    "Makeshift.Props.C141_make",
    "Makeshift.Props.C141_size",
    "Makeshift.Props.C141_visits",
    "Makeshift.Props.C141_subscript",
    "Makeshift.Props.C141_shorter_unsized"
   ],
   "note": ""
  },
  {
   "property": "C142",
   "status": "proved",
   "theorems": [
    "Makeshift.Props.C142_tag",
    "Makeshift.Props.C142_compare",
    "Makeshift.Props.C142_same_type",
    "Makeshift.Props.C142_extract",
    "Makeshift.Props.C142_constval_of_result",
    "Makeshift.Props.C142_type_function",
    "Makeshift.Props.C142_chain",
    "Makeshift.Props.C142_transform_extend",
    "Makeshift.Props.C142_mixed",
    "Makeshift.Props.C142_compare_transform",
    "Makeshift.Props.C142_no_tuples",
    "Makeshift.Props.C142_arrays",
    "Makeshift.Props.C142_no_arrays_of_sequences"
   ],
   "note": ""
  },
  {
   "property": "C143",
   "status": "proved",
   "theorems": [
    "Makeshift.Props.C143_round_trip",
    "Makeshift.Props.C143_texts",
    "Makeshift.Props.C143_texts_unique",
    "Makeshift.Props.C143_reader_ends",
    "Makeshift.Props.C143_no_lookahead",
    "Makeshift.Props.C143_rejected",
    "Makeshift.Props.C143_truncated",
    "Makeshift.Props.C143_single_empty_set",
    "Makeshift.Props.C143_leading_exists",
    "Makeshift.Props.C143_while_enum",
    "Makeshift.Props.C143_while_enum_misspelt",
    "Makeshift.Props.C143_while_flags",
    "Makeshift.Props.C143_while_empty"
   ],
   "note": ""
  },
  {
   "property": "C144",
   "status": "proved",
   "theorems": [
    "Makeshift.Props.C144_permutation_checked",
    "Makeshift.Props.C144_reverse_checked",
    "Makeshift.Props.C144_range_checked",
    "Makeshift.Props.C144_permutation_valid",
    "Makeshift.Props.C144_permutation_never_returns",
    "Makeshift.Props.C144_permutation_duplicates",
    "Makeshift.Props.C144_permutation_out_of_range",
    "Makeshift.Props.C144_reverse_valid",
    "Makeshift.Props.C144_reverse_never_returns",
    "Makeshift.Props.C144_reverse_duplicates",
    "Makeshift.Props.C144_reverse_out_of_range",
    "Makeshift.Props.C144_range_valid",
    "Makeshift.Props.C144_range_for",
    "Makeshift.Props.C144_first_decides",
    "Makeshift.Props.C144_all_of_wrong",
    "Makeshift.Props.C144_reduce_cut_off"
   ],
   "note": ""
  },
  {
   "property": "C145",
   "status": "proved",
   "theorems": [
    "Makeshift.Props.C145_checked",
    "Makeshift.Props.C145_valid",
    "Makeshift.Props.C145_enum_round_trip",
    "Makeshift.Props.C145_enum_stream",
    "Makeshift.Props.C145_enum_stream_negated",
    "Makeshift.Props.C145_flags_dropped",
    "Makeshift.Props.C145_combination_lost_negated",
    "Makeshift.Props.C145_empty_name_negated",
    "Makeshift.Props.C145_flags_stream"
   ],
   "note": ""
  },
  {
   "property": "C146",
   "status": "proved",
   "theorems": [
    "Makeshift.Props.C146_checked_ranges",
    "Makeshift.Props.C146_checked_span",
    "Makeshift.Props.C146_valid_ranges",
    "Makeshift.Props.C146_valid_span",
    "Makeshift.Props.C146_range_subscript",
    "Makeshift.Props.C146_static_extent",
    "Makeshift.Props.C146_index_range_reversed",
    "Makeshift.Props.C146_index_range_negative",
    "Makeshift.Props.C146_span_size",
    "Makeshift.Props.C146_span_subscript",
    "Makeshift.Props.C146_span_ends",
    "Makeshift.Props.C146_subspan",
    "Makeshift.Props.C146_first",
    "Makeshift.Props.C146_last",
    "Makeshift.Props.C146_type_enum_checked",
    "Makeshift.Props.C146_type_enum_any",
    "Makeshift.Props.C146_expand_checked",
    "Makeshift.Props.C146_expand_versus_try",
    "Makeshift.Props.C146_expand_unlisted",
    "Makeshift.Props.C146_expand_unlisted_integral"
   ],
   "note": ""
  },
  {
   "property": "C147",
   "status": "proved",
   "theorems": [
    "Makeshift.Props.C147_checked",
    "Makeshift.Props.C147_valid",
    "Makeshift.Props.C147_refinement",
    "Makeshift.Props.C147_no_leak",
    "Makeshift.Props.C147_static_in_object",
    "Makeshift.Props.C147_static_on_heap",
    "Makeshift.Props.C147_fixed_dynamic",
    "Makeshift.Props.C147_negative_extent",
    "Makeshift.Props.C147_array_assignment",
    "Makeshift.Props.C147_ends_of_empty"
   ],
   "note": ""
  },
  {
   "property": "C148",
   "status": "proved",
   "theorems": [
    "Makeshift.Props.C148_apply_left",
    "Makeshift.Props.C148_reverse_left",
    "Makeshift.Props.C148_calls_permutation",
    "Makeshift.Props.C148_calls_rejected"
   ],
   "note": ""
  },
  {
   "property": "C149",
   "status": "proved",
   "theorems": [
    "Makeshift.Props.C149_refinement",
    "Makeshift.Props.C149_no_leak",
    "Makeshift.Props.C149_no_effect"
   ],
   "note": ""
  },
  {
   "property": "C150",
   "status": "proved",
   "theorems": [
    "Makeshift.Props.C150_runs",
    "Makeshift.Props.C150_step",
    "Makeshift.Props.C150_no_effect",
    "Makeshift.Props.C150_throws_only_if",
    "Makeshift.Props.C150_balance",
    "Makeshift.Props.C150_no_leak"
   ],
   "note": ""
  },
  {
   "property": "C151",
   "status": "proved",
   "theorems": [
    "Makeshift.Props.C151_refines",
    "Makeshift.Props.C151_statement",
    "Makeshift.Props.C151_layout"
   ],
   "note": ""
  },
  {
   "property": "C152",
   "status": "proved",
   "theorems": [
    "Makeshift.Props.C152_runs",
    "Makeshift.Props.C152_subscript",
    "Makeshift.Props.C152_handlers_unused",
    "Makeshift.Props.C152_probe_negated"
   ],
   "note": ""
  },
  {
   "property": "C153",
   "status": "proved",
   "theorems": [
    "Makeshift.Props.C153_refines",
    "Makeshift.Props.C153_types"
   ],
   "note": ""
  },
  {
   "property": "C154",
   "status": "proved",
   "theorems": [
    "Makeshift.Props.C154_calls",
    "Makeshift.Props.C154_protocol",
    "Makeshift.Props.C154_finished",
    "Makeshift.Props.C154_returned",
    "Makeshift.Props.C154_after_end",
    "Makeshift.Props.C154_arguments",
    "Makeshift.Props.C154_exceptions",
    "Makeshift.Props.C154_zip_calls",
    "Makeshift.Props.C154_zip_no_comparisons",
    "Makeshift.Props.C154_zip_finished",
    "Makeshift.Props.C154_zip_arguments",
    "Makeshift.Props.C154_fill_calls",
    "Makeshift.Props.C154_reduce_calls",
    "Makeshift.Props.C154_answers",
    "Makeshift.Props.C154_accepted",
    "Makeshift.Props.C154_zip_order"
   ],
   "note": ""
  },
  {
   "property": "C155",
   "status": "proved",
   "theorems": [
    "Makeshift.Props.C155_refinement",
    "Makeshift.Props.C155_stable_read",
    "Makeshift.Props.C155_stable_write",
    "Makeshift.Props.C155_dangling",
    "Makeshift.Props.C155_loop"
   ],
   "note": ""
  },
  {
   "property": "C156",
   "status": "proved",
   "theorems": [
    "Makeshift.Props.C156_compiles",
    "Makeshift.Props.C156_valueless",
    "Makeshift.Props.C156_object",
    "Makeshift.Props.C156_reference",
    "Makeshift.Props.C156_reading",
    "Makeshift.Props.C156_void",
    "Makeshift.Props.C156_std"
   ],
   "note": ""
  },
  {
   "property": "C157",
   "status": "proved",
   "theorems": [
    "Makeshift.Props.C157_class",
    "Makeshift.Props.C157_class_negated",
    "Makeshift.Props.C157_alias",
    "Makeshift.Props.C157_answers",
    "Makeshift.Props.C157_answers_negated",
    "Makeshift.Props.C157_instantiation_of"
   ],
   "note": ""
  },
  {
   "property": "C158",
   "status": "proved",
   "theorems": [
    "Makeshift.Props.C158_in_place",
    "Makeshift.Props.C158_in_place_empty",
    "Makeshift.Props.C158_dynamic_construct",
    "Makeshift.Props.C158_dynamic_assign",
    "Makeshift.Props.C158_dynamic_traits",
    "Makeshift.Props.C158_in_place_traits",
    "Makeshift.Props.C158_member",
    "Makeshift.Props.C158_from_array",
    "Makeshift.Props.C158_assignable",
    "Makeshift.Props.C158_nested"
   ],
   "note": ""
  },
  {
   "property": "C159",
   "status": "proved",
   "theorems": [
    "Makeshift.Props.C159_arguments",
    "Makeshift.Props.C159_same_length",
    "Makeshift.Props.C159_different",
    "Makeshift.Props.C159_interrupted",
    "Makeshift.Props.C159_zip",
    "Makeshift.Props.C159_reduce",
    "Makeshift.Props.C159_fill"
   ],
   "note": ""
  },
  {
   "property": "C160",
   "status": "proved",
   "theorems": [
    "Makeshift.Props.C160_accepts",
    "Makeshift.Props.C160_count",
    "Makeshift.Props.C160_members_iff",
    "Makeshift.Props.C160_lvalue",
    "Makeshift.Props.C160_upward",
    "Makeshift.Props.C160_not_from_below",
    "Makeshift.Props.C160_value",
    "Makeshift.Props.C160_no_value"
   ],
   "note": ""
  },
  {
   "property": "C161",
   "status": "proved",
   "theorems": [
    "Makeshift.Props.C161_same",
    "Makeshift.Props.C161_enum",
    "Makeshift.Props.C161_flags_to_string",
    "Makeshift.Props.C161_parse_flags",
    "Makeshift.Props.C161_linear"
   ],
   "note": ""
  },
  {
   "property": "C162",
   "status": "proved",
   "theorems": [
    "Makeshift.Props.C162_equal",
    "Makeshift.Props.C162_less",
    "Makeshift.Props.C162_number",
    "Makeshift.Props.C162_pure_equal",
    "Makeshift.Props.C162_pure_less",
    "Makeshift.Props.C162_equal_type",
    "Makeshift.Props.C162_less_type"
   ],
   "note": ""
  },
  {
   "property": "C163",
   "status": "proved",
   "theorems": [
    "Makeshift.Props.C163_sound",
    "Makeshift.Props.C163_number",
    "Makeshift.Props.C163_linear",
    "Makeshift.Props.C163_pure",
    "Makeshift.Props.C163_expand"
   ],
   "note": ""
  },
  {
   "property": "C164",
   "status": "proved",
   "theorems": [
    "Makeshift.Props.C164_forward",
    "Makeshift.Props.C164_reverse",
    "Makeshift.Props.C164_endless",
    "Makeshift.Props.C164_array",
    "Makeshift.Props.C164_array_reverse"
   ],
   "note": ""
  },
  {
   "property": "C165",
   "status": "proved",
   "theorems": [
    "Makeshift.Props.C165_unique",
    "Makeshift.Props.C165_filter",
    "Makeshift.Props.C165_cat",
    "Makeshift.Props.C165_equal",
    "Makeshift.Props.C165_transform",
    "Makeshift.Props.C165_many",
    "Makeshift.Props.C165_limit",
    "Makeshift.Props.C165_search",
    "Makeshift.Props.C165_search_first"
   ],
   "note": ""
  },
  {
   "property": "C166",
   "status": "proved",
   "theorems": [
    "Makeshift.Props.C166_exact",
    "Makeshift.Props.C166_combinations",
    "Makeshift.Props.C166_empty"
   ],
   "note": ""
  },
  {
   "property": "C167",
   "status": "proved",
   "theorems": [
    "Makeshift.Props.C167_run",
    "Makeshift.Props.C167_final",
    "Makeshift.Props.C167_sample",
    "Makeshift.Props.C167_agrees"
   ],
   "note": ""
  }
 ]
}