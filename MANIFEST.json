{
 "claims": [
  {
   "property": "C01",
   "status": "proved",
   "theorems": [
    "MultiArray.Props.C01_brackets_in_block",
    "MultiArray.Props.C01_addressing_in_block"
   ],
   "note": ""
  },
  {
   "property": "C02",
   "status": "proved",
   "theorems": [
    "MultiArray.Props.C02_brackets_distinct",
    "MultiArray.Props.C02_distinct_elements"
   ],
   "note": ""
  },
  {
   "property": "C03",
   "status": "proved",
   "theorems": [
    "MultiArray.Props.C03_brackets_every_element",
    "MultiArray.Props.C03_every_element_addressable"
   ],
   "note": ""
  },
  {
   "property": "C04",
   "status": "proved",
   "theorems": [
    "MultiArray.Props.C04_default_order_list",
    "MultiArray.Props.C04_default_order_gen",
    "MultiArray.Props.C04_default_order_multi_array",
    "MultiArray.Props.C04_c_order_row_major",
    "MultiArray.Props.C04_fortran_order_column_major"
   ],
   "note": ""
  },
  {
   "property": "C05",
   "status": "proved",
   "theorems": [
    "MultiArray.Props.C05_stride_formula",
    "MultiArray.Props.C05_every_dimension",
    "MultiArray.Props.C05_descending_mirrors",
    "MultiArray.Props.C05_layout_formula"
   ],
   "note": ""
  },
  {
   "property": "C06",
   "status": "proved",
   "theorems": [
    "MultiArray.Props.C06_accessor_equivalence",
    "MultiArray.Props.C06_array_members",
    "MultiArray.Props.C06_view_members",
    "MultiArray.Props.C06_subarray_members"
   ],
   "note": ""
  },
  {
   "property": "C07",
   "status": "proved",
   "theorems": [
    "MultiArray.Props.C07_range_check_exact",
    "MultiArray.Props.C07_checked_access_in_block",
    "MultiArray.Props.C07_members_checked"
   ],
   "note": ""
  },
  {
   "property": "C08",
   "status": "proved",
   "theorems": [
    "MultiArray.Props.C08_access",
    "MultiArray.Props.C08_view",
    "MultiArray.Props.C08_reshape",
    "MultiArray.Props.C08_assignment_without_assertions"
   ],
   "note": ""
  },
  {
   "property": "C09",
   "status": "proved",
   "theorems": [
    "MultiArray.Props.C09_view_queries",
    "MultiArray.Props.C09_array_queries",
    "MultiArray.Props.C09_subarray_queries"
   ],
   "note": ""
  },
  {
   "property": "C10",
   "status": "proved",
   "theorems": [
    "MultiArray.Props.C10_handle_address",
    "MultiArray.Props.C10_array_address",
    "MultiArray.Props.C10_data_eq_origin",
    "MultiArray.Props.C10_origin_is_element_zero",
    "MultiArray.Props.C10_data_is_first"
   ],
   "note": ""
  },
  {
   "property": "C11",
   "status": "proved",
   "theorems": [
    "MultiArray.Props.C11_reindex_relabels",
    "MultiArray.Props.C11_reindex_all",
    "MultiArray.Props.C11_slice_after_reindex",
    "MultiArray.Props.C11_view_slice_after_reindex",
    "MultiArray.Props.C11_view_reindex_relabels"
   ],
   "note": ""
  },
  {
   "property": "C12",
   "status": "proved",
   "theorems": [
    "MultiArray.Props.C12_reindex_history_collapses",
    "MultiArray.Props.C12_reindex_restores",
    "MultiArray.Props.C12_view_reindex_history_collapses",
    "MultiArray.Props.C12_view_reindex_restores"
   ],
   "note": ""
  },
  {
   "property": "C13",
   "status": "proved",
   "theorems": [
    "MultiArray.Props.C13_reshape_preserves",
    "MultiArray.Props.C13_reshape_keeps_sequence",
    "MultiArray.Props.C13_reshape_keeps_storage_sequence"
   ],
   "note": ""
  },
  {
   "property": "C14",
   "status": "proved",
   "theorems": [
    "MultiArray.Props.C14_reshape_round_trip",
    "MultiArray.Props.C14_reshape_history"
   ],
   "note": ""
  },
  {
   "property": "C15",
   "status": "proved",
   "theorems": [
    "MultiArray.Props.C15_reshape_rejects_exactly",
    "MultiArray.Props.C15_short_list_hazard"
   ],
   "note": ""
  },
  {
   "property": "C16",
   "status": "proved",
   "theorems": [
    "MultiArray.Props.C16_slice_members",
    "MultiArray.Props.C16_view_elements",
    "MultiArray.Props.C16_all_accepted"
   ],
   "note": ""
  },
  {
   "property": "C17",
   "status": "proved",
   "theorems": [
    "MultiArray.Props.C17_view_extents_count",
    "MultiArray.Props.C17_view_length_formula"
   ],
   "note": ""
  },
  {
   "property": "C18",
   "status": "partial",
   "theorems": [
    "MultiArray.Props.C18_exact",
    "MultiArray.Props.C18_counterexample",
    "MultiArray.Props.C18_views_contained_partial"
   ],
   "note": "False as stated: a range that starts one past the end with a negative stride passes the assertions and selects a non-existent element (C18_counterexample). Proved for all handles whose ranges avoid that one case. C18_exact: necessary and sufficient condition for every accepted view."
  },
  {
   "property": "C19",
   "status": "proved",
   "theorems": [
    "MultiArray.Props.C19_views_distinct",
    "MultiArray.Props.C19_selection_injective",
    "MultiArray.Props.C19_overrun_aliases"
   ],
   "note": ""
  },
  {
   "property": "C20",
   "status": "proved",
   "theorems": [
    "MultiArray.Props.C20_views_compose_reindexed",
    "MultiArray.Props.C20_views_compose"
   ],
   "note": ""
  },
  {
   "property": "C21",
   "status": "proved",
   "theorems": [
    "MultiArray.Props.C21_omitted_bounds",
    "MultiArray.Props.C21_default_view",
    "MultiArray.Props.C21_all_view"
   ],
   "note": ""
  },
  {
   "property": "C22",
   "status": "proved",
   "theorems": [
    "MultiArray.Props.C22_view_accepts_exactly",
    "MultiArray.Props.C22_arity_mismatch"
   ],
   "note": ""
  },
  {
   "property": "C23",
   "status": "proved",
   "theorems": [
    "MultiArray.Props.C23_write_changes_one_element",
    "MultiArray.Props.C23_read_after_write",
    "MultiArray.Props.C23_write_through_iterator"
   ],
   "note": ""
  },
  {
   "property": "C24",
   "status": "proved",
   "theorems": [
    "MultiArray.Props.C24_reverse",
    "MultiArray.Props.C24_reverse_twice"
   ],
   "note": ""
  },
  {
   "property": "C25",
   "status": "proved",
   "theorems": [
    "MultiArray.Props.C25_subarray",
    "MultiArray.Props.C25_subarray_is_slice"
   ],
   "note": ""
  },
  {
   "property": "C26",
   "status": "proved",
   "theorems": [
    "MultiArray.Props.C26_iterator_range",
    "MultiArray.Props.C26_loop_produces_values"
   ],
   "note": ""
  },
  {
   "property": "C27",
   "status": "proved",
   "theorems": [
    "MultiArray.Props.C27_converted_iterators",
    "MultiArray.Props.C27_iterator_laws",
    "MultiArray.Props.C27_iterator_order",
    "MultiArray.Props.C27_iterator_index"
   ],
   "note": ""
  },
  {
   "property": "C28",
   "status": "proved",
   "theorems": [
    "MultiArray.Props.C28_nested_iteration",
    "MultiArray.Props.C28_array_covers_block"
   ],
   "note": ""
  },
  {
   "property": "C29",
   "status": "proved",
   "theorems": [
    "MultiArray.Props.C29_reverse_iteration",
    "MultiArray.Props.C29_reverse_iterator_laws"
   ],
   "note": ""
  },
  {
   "property": "C30",
   "status": "proved",
   "theorems": [
    "MultiArray.Props.C30_assigned_compares_equal",
    "MultiArray.Props.C30_multi_array_assignment",
    "MultiArray.Props.C30_assignment_deep_copy"
   ],
   "note": ""
  },
  {
   "property": "C31",
   "status": "proved",
   "theorems": [
    "MultiArray.Props.C31_multi_array_assignment",
    "MultiArray.Props.C31_shape_mismatch_rejected"
   ],
   "note": ""
  },
  {
   "property": "C32",
   "status": "proved",
   "theorems": [
    "MultiArray.Props.C32_multi_array_self_assignment",
    "MultiArray.Props.C32_self_assignment",
    "MultiArray.Props.C32_assign_alias",
    "MultiArray.Props.C32_overlap_hazard"
   ],
   "note": ""
  },
  {
   "property": "C33",
   "status": "proved",
   "theorems": [
    "MultiArray.Props.C33_assign_fills_in_memory_order",
    "MultiArray.Props.C33_assign_in_index_terms",
    "MultiArray.Props.C33_assign_in_storage_order"
   ],
   "note": ""
  },
  {
   "property": "C34",
   "status": "proved",
   "theorems": [
    "MultiArray.Props.C34_copy_equal",
    "MultiArray.Props.C34_copies_independent"
   ],
   "note": ""
  },
  {
   "property": "C35",
   "status": "proved",
   "theorems": [
    "MultiArray.Props.C35_conversion_default_order",
    "MultiArray.Props.C35_conversion"
   ],
   "note": ""
  },
  {
   "property": "C36",
   "status": "proved",
   "theorems": [
    "MultiArray.Props.C36_copy_array_eq_assignment"
   ],
   "note": ""
  },
  {
   "property": "C37",
   "status": "proved",
   "theorems": [
    "MultiArray.Props.C37_resize_from_other",
    "MultiArray.Props.C37_resize_contents",
    "MultiArray.Props.C37_resize_extent_list"
   ],
   "note": ""
  },
  {
   "property": "C38",
   "status": "proved",
   "theorems": [
    "MultiArray.Props.C38_same_shape",
    "MultiArray.Props.C38_grow_then_shrink",
    "MultiArray.Props.C38_any_resizes"
   ],
   "note": ""
  },
  {
   "property": "C39",
   "status": "proved",
   "theorems": [
    "MultiArray.Props.C39_resize_storage",
    "MultiArray.Props.C39_any_resizes"
   ],
   "note": ""
  },
  {
   "property": "C40",
   "status": "proved",
   "theorems": [
    "MultiArray.Props.C40_equality",
    "MultiArray.Props.C40_equivalence"
   ],
   "note": ""
  },
  {
   "property": "C41",
   "status": "proved",
   "theorems": [
    "MultiArray.Props.C41_less_is_lexicographic",
    "MultiArray.Props.C41_strict_weak_order",
    "MultiArray.Props.C41_trichotomy",
    "MultiArray.Props.C41_same_shape"
   ],
   "note": ""
  },
  {
   "property": "C42",
   "status": "partial",
   "theorems": [
    "MultiArray.Props.C42_derived_operators",
    "MultiArray.Props.C42_antisymmetry_counterexample",
    "MultiArray.Props.C42_antisymmetry_partial",
    "MultiArray.Props.C42_antisymmetry_exact"
   ],
   "note": "The derivations of >, <=, >= are proved in full. Antisymmetry (a<=b and b<=a implies a==b) is false when an extent is zero (C42_antisymmetry_counterexample); proved when shapes agree or one side has no zero extent. C42_antisymmetry_exact: necessary and sufficient condition."
  },
  {
   "property": "C43",
   "status": "proved",
   "theorems": [
    "MultiArray.Props.C43_indices_chain",
    "MultiArray.Props.C43_indices_prefix_reusable",
    "MultiArray.Props.C43_extents_chain",
    "MultiArray.Props.C43_extent_range_forms",
    "MultiArray.Props.C43_extents_prefix_reusable",
    "MultiArray.Props.C43_extents_array"
   ],
   "note": ""
  },
  {
   "property": "C44",
   "status": "proved",
   "theorems": [
    "MultiArray.Props.C44_inequality_endpoints",
    "MultiArray.Props.C44_setters_commute",
    "MultiArray.Props.C44_inequality_meaning",
    "MultiArray.Props.C44_single_setters",
    "MultiArray.Props.C44_set_index_range",
    "MultiArray.Props.C44_set_index_range_hazard",
    "MultiArray.Props.C44_strided_meaning",
    "MultiArray.Props.C44_shift",
    "MultiArray.Props.C44_shift_default_hazard"
   ],
   "note": ""
  },
  {
   "property": "C45",
   "status": "partial",
   "theorems": [
    "MultiArray.Props.C45_size_exact",
    "MultiArray.Props.C45_counterexample",
    "MultiArray.Props.C45_size_exact_partial",
    "MultiArray.Props.C45_size_off_by_one_partial"
   ],
   "note": "False as stated: index_range::size truncates (C45_counterexample). Proved exact when the stride divides finish-start; otherwise proved to be one too small. C45_size_exact: necessary and sufficient condition."
  },
  {
   "property": "C46",
   "status": "proved",
   "theorems": [
    "MultiArray.Props.C46_standard_orders",
    "MultiArray.Props.C46_general_order",
    "MultiArray.Props.C46_equality",
    "MultiArray.Props.C46_all_dims_ascending"
   ],
   "note": ""
  },
  {
   "property": "C47",
   "status": "proved",
   "theorems": [
    "MultiArray.Props.C47_lifetimes_balanced",
    "MultiArray.Props.C47_lifetimes_under_exceptions"
   ],
   "note": ""
  },
  {
   "property": "C48",
   "status": "proved",
   "theorems": [
    "MultiArray.Props.C48_resize_strong_guarantee"
   ],
   "note": ""
  },
  {
   "property": "C49",
   "status": "proved",
   "theorems": [
    "MultiArray.Props.C49_interrupted_assignment"
   ],
   "note": ""
  },
  {
   "property": "C50",
   "status": "partial",
   "theorems": [
    "MultiArray.Props.C50_leak_exact",
    "MultiArray.Props.C50_failed_construction_partial",
    "MultiArray.Props.C50_counterexample_element_construction",
    "MultiArray.Props.C50_counterexample_copy"
   ],
   "note": "The claim is false of the code: constructors leak on a throwing element constructor or copy (both counterexamples proved, for all shapes). Proved instead: never undefined behaviour, existing storage untouched, at most the one fresh block remains, nothing remains when allocation itself throws. C50_leak_exact: the block is leaked precisely when the exception is not from the allocation."
  },
  {
   "property": "C51",
   "status": "proved",
   "theorems": [
    "MultiArray.Props.C51_construction",
    "MultiArray.Props.C51_reindex",
    "MultiArray.Props.C51_reshape",
    "MultiArray.Props.C51_access",
    "MultiArray.Props.C51_in_range_access",
    "MultiArray.Props.C51_zero_based_fits",
    "MultiArray.Props.C51_views",
    "MultiArray.Props.C51_view_reindex",
    "MultiArray.Props.C51_hazard_size_wraps",
    "MultiArray.Props.C51_iteration",
    "MultiArray.Props.C51_reverse_iteration",
    "MultiArray.Props.C51_random_access",
    "MultiArray.Props.C51_array_dims_fit",
    "MultiArray.Props.C51_subarray_dims_fit",
    "MultiArray.Props.C51_view_dims_fit",
    "MultiArray.Props.C51_hazard_end_overflows"
   ],
   "note": ""
  },
  {
   "property": "C52",
   "status": "proved",
   "theorems": [
    "MultiArray.Props.C52_step_refines",
    "MultiArray.Props.C52_history_refinement",
    "MultiArray.Props.C52_construction"
   ],
   "note": ""
  },
  {
   "property": "C53",
   "status": "proved",
   "theorems": [
    "MultiArray.Props.C53_views_survive"
   ],
   "note": ""
  },
  {
   "property": "C54",
   "status": "partial",
   "theorems": [
    "MultiArray.Props.C54_displacement",
    "MultiArray.Props.C54_subarrays_survive_partial",
    "MultiArray.Props.C54_counterexample"
   ],
   "note": "False as stated: after reindex a previously obtained subarray is displaced by sum((new base-old base)*stride) over its own dimensions (C54_displacement, exact), and in-range accesses may leave the block (C54_counterexample). Proved: it survives exactly when that displacement is zero."
  },
  {
   "property": "C55",
   "status": "proved",
   "theorems": [
    "MultiArray.Props.C55_const_preserved",
    "MultiArray.Props.C55_const_subarray_members",
    "MultiArray.Props.C55_subscripting"
   ],
   "note": ""
  },
  {
   "property": "C56",
   "status": "proved",
   "theorems": [
    "MultiArray.Props.C56_for_each",
    "MultiArray.Props.C56_for_each_order"
   ],
   "note": ""
  },
  {
   "property": "C57",
   "status": "partial",
   "theorems": [
    "MultiArray.Props.C57_subarray_iterators_partial",
    "MultiArray.Props.C57_object_iterators",
    "MultiArray.Props.C57_counterexample_two_dimensions",
    "MultiArray.Props.C57_bases_after_reindex",
    "MultiArray.Props.C57_iterators_after_reindex_partial",
    "MultiArray.Props.C57_counterexample",
    "MultiArray.Props.C57_iterators"
   ],
   "note": "False as stated, in two ways: a begin() iterator asserts when dereferenced after reindex (C57_counterexample); an iterator over a 2-dimensional array yields a row whose elements are displaced, partly out of the storage, when the bases of the second dimension change (C57_counterexample_two_dimensions). Proved, for iterators over arrays, views and their subarrays and any history of reindex calls: with assertions off the same subarray object results; with assertions on it can be dereferenced exactly when its old index lies in the new index range; the subarray's elements are displaced by one distance, and are the same exactly when it is 0."
  },
  {
   "property": "C58",
   "status": "partial",
   "theorems": [
    "MultiArray.Props.C58_exact",
    "MultiArray.Props.C58_subarray_needs_only_its_owner_partial",
    "MultiArray.Props.C58_held_subarray_is_the_expression_partial",
    "MultiArray.Props.C58_counterexample_temporary_view"
   ],
   "note": "False as stated: a subarray of a temporary view dangles once the view is gone (C58_counterexample_temporary_view). Proved: a subarray depends on nothing but the object it was taken from. C58_exact: usable precisely while that object exists."
  },
  {
   "property": "C59",
   "status": "partial",
   "theorems": [
    "MultiArray.Props.C59_copying_keeps_const_partial",
    "MultiArray.Props.C59_counterexample_const_array",
    "MultiArray.Props.C59_counterexample_const_subarray",
    "MultiArray.Props.C59_exact"
   ],
   "note": "False as stated: multi_array_ref's implicit copy constructor accepts a const multi_array (C59_counterexample_const_array); const sub_array leaks a mutable pointer through its base class and by copying. Proved for const_multi_array_ref, const_subarray, const_array_view and the const iterators. C59_exact: exactly which expression types cannot reach mutable access."
  },
  {
   "property": "C60",
   "status": "proved",
   "theorems": [
    "MultiArray.Props.C60_fortran_is_transposed_c"
   ],
   "note": ""
  },
  {
   "property": "C61",
   "status": "proved",
   "theorems": [
    "MultiArray.Props.C61_descending_is_reversed_view"
   ],
   "note": ""
  },
  {
   "property": "C62",
   "status": "proved",
   "theorems": [
    "MultiArray.Props.C62_schedule_independence",
    "MultiArray.Props.C62_no_data_race",
    "MultiArray.Props.C62_concurrent_readers",
    "MultiArray.Props.C62_rows_disjoint",
    "MultiArray.Props.C62_arrays_disjoint",
    "MultiArray.Props.C62_parallel_for_each",
    "MultiArray.Props.C62_parallel_assign",
    "MultiArray.Props.C62_race_hazard"
   ],
   "note": ""
  },
  {
   "property": "C63",
   "status": "proved",
   "theorems": [
    "MultiArray.Props.C63_equal_iff_rows",
    "MultiArray.Props.C63_equal_views"
   ],
   "note": ""
  },
  {
   "property": "C64",
   "status": "proved",
   "theorems": [
    "MultiArray.Props.C64_positions",
    "MultiArray.Props.C64_copy_is_flat_loop",
    "MultiArray.Props.C64_for_each_is_flat_loop",
    "MultiArray.Props.C64_interrupted_for_each",
    "MultiArray.Props.C64_interrupted_copy_array",
    "MultiArray.Props.C64_interrupted_assign"
   ],
   "note": ""
  },
  {
   "property": "C65",
   "status": "proved",
   "theorems": [
    "MultiArray.Props.C65_ordered_overlap",
    "MultiArray.Props.C65_overlap_semantics",
    "MultiArray.Props.C65_exact",
    "MultiArray.Props.C65_move_window",
    "MultiArray.Props.C65_shift_rows"
   ],
   "note": ""
  },
  {
   "property": "C66",
   "status": "proved",
   "theorems": [
    "MultiArray.Props.C66_allocators_paired",
    "MultiArray.Props.C66_wrong_allocator_fails",
    "MultiArray.Props.C66_mismatch_is_detected"
   ],
   "note": ""
  },
  {
   "property": "C67",
   "status": "proved",
   "theorems": [
    "MultiArray.Props.C67_step_refines",
    "MultiArray.Props.C67_program_refinement"
   ],
   "note": ""
  },
  {
   "property": "C68",
   "status": "partial",
   "theorems": [
    "MultiArray.Props.C68_pointers_in_storage_partial",
    "MultiArray.Props.C68_origin_in_storage_partial",
    "MultiArray.Props.C68_new_view_in_storage_partial",
    "MultiArray.Props.C68_c_order",
    "MultiArray.Props.C68_origin_exact",
    "MultiArray.Props.C68_first_stored",
    "MultiArray.Props.C68_counterexample_one_based",
    "MultiArray.Props.C68_counterexample_empty_fortran"
   ],
   "note": "False as stated: origin() of a one-based array lies before the storage and every access starts from it (C68_counterexample_one_based); an empty Fortran-order array forms a[2] past its empty storage (C68_counterexample_empty_fortran). Proved: for every array, subarray and view whose index ranges contain 0, for every newly created non-empty view, and for all zero-based C-order arrays including empty ones. C68_origin_exact: necessary and sufficient condition for every array."
  },
  {
   "property": "C69",
   "status": "proved",
   "theorems": [
    "MultiArray.Props.C69_exchange_parts",
    "MultiArray.Props.C69_swap_arrays",
    "MultiArray.Props.C69_row_permutation",
    "MultiArray.Props.C69_reverse_rows"
   ],
   "note": ""
  },
  {
   "property": "C70",
   "status": "proved",
   "theorems": [
    "MultiArray.Props.C70_view_elements_exact",
    "MultiArray.Props.C70_views_disjoint_iff",
    "MultiArray.Props.C70_strided_views_partition"
   ],
   "note": ""
  },
  {
   "property": "C71",
   "status": "proved",
   "theorems": [
    "MultiArray.Props.C71_client_under_exceptions"
   ],
   "note": ""
  },
  {
   "property": "C72",
   "status": "proved",
   "theorems": [
    "MultiArray.Props.C72_elementwise",
    "MultiArray.Props.C72_interrupted",
    "MultiArray.Props.C72_mismatch_rejected",
    "MultiArray.Props.C72_converting_assignment"
   ],
   "note": ""
  },
  {
   "property": "C73",
   "status": "proved",
   "theorems": [
    "MultiArray.Props.C73_program_refinement",
    "MultiArray.Props.C73_write_visible",
    "MultiArray.Props.C73_handles_keep"
   ],
   "note": ""
  },
  {
   "property": "C74",
   "status": "proved",
   "theorems": [
    "MultiArray.Props.C74_element_operations",
    "MultiArray.Props.C74_construction",
    "MultiArray.Props.C74_conversion",
    "MultiArray.Props.C74_resize",
    "MultiArray.Props.C74_resize_list",
    "MultiArray.Props.C74_program",
    "MultiArray.Props.C74_only_new_shapes",
    "MultiArray.Props.C74_ordinary_views",
    "MultiArray.Props.C74_zero_based_fits",
    "MultiArray.Props.C74_hazard_wrapped_allocation"
   ],
   "note": ""
  },
  {
   "property": "C75",
   "status": "proved",
   "theorems": [
    "MultiArray.Props.C75_algorithms_on_rows",
    "MultiArray.Props.C75_algorithms_on_one_row",
    "MultiArray.Props.C75_std_reverse"
   ],
   "note": ""
  },
  {
   "property": "C76",
   "status": "proved",
   "theorems": [
    "MultiArray.Props.C76_client_on_machine"
   ],
   "note": ""
  },
  {
   "property": "C77",
   "status": "proved",
   "theorems": [
    "MultiArray.Props.C77_shared_client_under_exceptions",
    "MultiArray.Props.C77_interrupted_frame"
   ],
   "note": ""
  },
  {
   "property": "C78",
   "status": "proved",
   "theorems": [
    "MultiArray.Props.C78_print",
    "MultiArray.Props.C78_print_decides_equality",
    "MultiArray.Props.C78_empty_dimension_hazard"
   ],
   "note": ""
  },
  {
   "property": "C79",
   "status": "proved",
   "theorems": [
    "MultiArray.Props.C79_shared_program",
    "MultiArray.Props.C79_hazard_view_reindex"
   ],
   "note": ""
  },
  {
   "property": "C80",
   "status": "proved",
   "theorems": [
    "MultiArray.Props.C80_shared_client_on_machine"
   ],
   "note": ""
  },
  {
   "property": "C81",
   "status": "proved",
   "theorems": [
    "MultiArray.Props.C81_completes_iff",
    "MultiArray.Props.C81_construction",
    "MultiArray.Props.C81_resize",
    "MultiArray.Props.C81_assignment",
    "MultiArray.Props.C81_assign_range",
    "MultiArray.Props.C81_for_each",
    "MultiArray.Props.C81_element_access",
    "MultiArray.Props.C81_destruction"
   ],
   "note": ""
  },
  {
   "property": "C82",
   "status": "proved",
   "theorems": [
    "MultiArray.Props.C82_parallel_for_each",
    "MultiArray.Props.C82_parallel_assign",
    "MultiArray.Props.C82_cyclic_part",
    "MultiArray.Props.C82_cyclic_for_each",
    "MultiArray.Props.C82_cyclic_assign"
   ],
   "note": ""
  },
  {
   "property": "C83",
   "status": "proved",
   "theorems": [
    "MultiArray.Props.C83_isolated_threads",
    "MultiArray.Props.C83_concurrent_clients",
    "MultiArray.Props.C83_completable"
   ],
   "note": ""
  },
  {
   "property": "C84",
   "status": "proved",
   "theorems": [
    "MultiArray.Props.C84_parallel_section",
    "MultiArray.Props.C84_completable",
    "MultiArray.Props.C84_fork_join",
    "MultiArray.Props.C84_deterministic"
   ],
   "note": ""
  },
  {
   "property": "C85",
   "status": "proved",
   "theorems": [
    "MultiArray.Props.C85_equality_any",
    "MultiArray.Props.C85_less_any",
    "MultiArray.Props.C85_times_meaning",
    "MultiArray.Props.C85_equality_count",
    "MultiArray.Props.C85_less_count",
    "MultiArray.Props.C85_bounds",
    "MultiArray.Props.C85_less_exponential"
   ],
   "note": ""
  },
  {
   "property": "C86",
   "status": "proved",
   "theorems": [
    "MultiArray.Props.C86_values",
    "MultiArray.Props.C86_never_reads_too_much",
    "MultiArray.Props.C86_input_throws",
    "MultiArray.Props.C86_sources",
    "MultiArray.Props.C86_is_copy_loop",
    "MultiArray.Props.C86_forward",
    "MultiArray.Props.C86_backward"
   ],
   "note": ""
  },
  {
   "property": "C87",
   "status": "proved",
   "theorems": [
    "MultiArray.Props.C87_access_unchecked",
    "MultiArray.Props.C87_c_order_runs_on",
    "MultiArray.Props.C87_unchecked_element",
    "MultiArray.Props.C87_assign_unchecked",
    "MultiArray.Props.C87_smaller_source",
    "MultiArray.Props.C87_assign_defined_iff",
    "MultiArray.Props.C87_view_unchecked",
    "MultiArray.Props.C87_reshape_unchecked"
   ],
   "note": ""
  },
  {
   "property": "C88",
   "status": "proved",
   "theorems": [
    "MultiArray.Props.C88_construction",
    "MultiArray.Props.C88_destruction",
    "MultiArray.Props.C88_assignment",
    "MultiArray.Props.C88_assign_arrays",
    "MultiArray.Props.C88_for_each",
    "MultiArray.Props.C88_assign_range",
    "MultiArray.Props.C88_resize",
    "MultiArray.Props.C88_lifetimes",
    "MultiArray.Props.C88_nothing_else",
    "MultiArray.Props.C88_balance",
    "MultiArray.Props.C88_program"
   ],
   "note": ""
  },
  {
   "property": "C89",
   "status": "proved",
   "theorems": [
    "MultiArray.Props.C89_still_valid",
    "MultiArray.Props.C89_invalidated_exactly",
    "MultiArray.Props.C89_gone_is_undefined"
   ],
   "note": ""
  },
  {
   "property": "C90",
   "status": "proved",
   "theorems": [
    "MultiArray.Props.C90_only_the_first_entries",
    "MultiArray.Props.C90_too_short_is_undefined",
    "MultiArray.Props.C90_reshape_too_long",
    "MultiArray.Props.C90_reshape_too_short"
   ],
   "note": ""
  },
  {
   "property": "C91",
   "status": "proved",
   "theorems": [
    "MultiArray.Props.C91_strides",
    "MultiArray.Props.C91_contiguous_iff",
    "MultiArray.Props.C91_arrays_and_subarrays",
    "MultiArray.Props.C91_slices",
    "MultiArray.Props.C91_raw_access"
   ],
   "note": ""
  },
  {
   "property": "C92",
   "status": "proved",
   "theorems": [
    "MultiArray.Props.C92_algorithms_on_rows",
    "MultiArray.Props.C92_rows_exist",
    "MultiArray.Props.C92_insertion_sort"
   ],
   "note": ""
  },
  {
   "property": "C93",
   "status": "proved",
   "theorems": [
    "MultiArray.Props.C93_same_program",
    "MultiArray.Props.C93_no_invented_values"
   ],
   "note": ""
  },
  {
   "property": "C94",
   "status": "proved",
   "theorems": [
    "MultiArray.Props.C94_parens",
    "MultiArray.Props.C94_brackets",
    "MultiArray.Props.C94_construction",
    "MultiArray.Props.C94_reindex",
    "MultiArray.Props.C94_view_reindex",
    "MultiArray.Props.C94_reshape",
    "MultiArray.Props.C94_arrays_fit",
    "MultiArray.Props.C94_hazard_negative_extent"
   ],
   "note": ""
  },
  {
   "property": "C95",
   "status": "proved",
   "theorems": [
    "MultiArray.Props.C95_plain_constructors",
    "MultiArray.Props.C95_copy_constructor",
    "MultiArray.Props.C95_convert",
    "MultiArray.Props.C95_resize",
    "MultiArray.Props.C95_assignment",
    "MultiArray.Props.C95_assign_range",
    "MultiArray.Props.C95_copy_arrays_of_arrays",
    "MultiArray.Props.C95_assign_arrays_of_arrays"
   ],
   "note": ""
  },
  {
   "property": "C96",
   "status": "proved",
   "theorems": [
    "MultiArray.Props.C96_one_addition",
    "MultiArray.Props.C96_linear",
    "MultiArray.Props.C96_checked",
    "MultiArray.Props.C96_checked_zero_in_box",
    "MultiArray.Props.C96_checked_zero_based",
    "MultiArray.Props.C96_checked_one_based_traps",
    "MultiArray.Props.C96_segmented_reads_wrong_element",
    "MultiArray.Props.C96_convert",
    "MultiArray.Props.C96_compare"
   ],
   "note": ""
  },
  {
   "property": "C97",
   "status": "proved",
   "theorems": [
    "MultiArray.Props.C97_rows_under_exceptions",
    "MultiArray.Props.C97_same_execution",
    "MultiArray.Props.C97_no_row_invented",
    "MultiArray.Props.C97_insertion_sort"
   ],
   "note": ""
  },
  {
   "property": "C98",
   "status": "proved",
   "theorems": [
    "MultiArray.Props.C98_elements",
    "MultiArray.Props.C98_parts_fit",
    "MultiArray.Props.C98_std_reverse",
    "MultiArray.Props.C98_same_execution",
    "MultiArray.Props.C98_rows",
    "MultiArray.Props.C98_zero_based_rows_fit",
    "MultiArray.Props.C98_insertion_sort"
   ],
   "note": ""
  },
  {
   "property": "C99",
   "status": "proved",
   "theorems": [
    "MultiArray.Props.C99_held_client",
    "MultiArray.Props.C99_same_as_spelled_out",
    "MultiArray.Props.C99_held_client_on_machine"
   ],
   "note": ""
  },
  {
   "property": "C100",
   "status": "proved",
   "theorems": [
    "MultiArray.Props.C100_lifetimes",
    "MultiArray.Props.C100_pointers_are_copies",
    "MultiArray.Props.C100_on_machine"
   ],
   "note": ""
  },
  {
   "property": "C101",
   "status": "proved",
   "theorems": [
    "MultiArray.Props.C101_models_multi_array",
    "MultiArray.Props.C101_array_members",
    "MultiArray.Props.C101_view_members"
   ],
   "note": ""
  },
  {
   "property": "C102",
   "status": "proved",
   "theorems": [
    "MultiArray.Props.C102_storage_order_unobservable_with_exceptions",
    "MultiArray.Props.C102_same_preconditions",
    "MultiArray.Props.C102_storage_order_unobservable",
    "MultiArray.Props.C102_same_possibilities"
   ],
   "note": ""
  },
  {
   "property": "C103",
   "status": "proved",
   "theorems": [
    "MultiArray.Props.C103_run_is_predicted",
    "MultiArray.Props.C103_legal_if_always_legal",
    "MultiArray.Props.C103_build_modes_agree",
    "MultiArray.Props.C103_run_is_predicted_on_machine"
   ],
   "note": ""
  },
  {
   "property": "C104",
   "status": "proved",
   "theorems": [
    "MultiArray.Props.C104_copy_array_loop",
    "MultiArray.Props.C104_assignment_loop",
    "MultiArray.Props.C104_for_each_loop",
    "MultiArray.Props.C104_equal_loop",
    "MultiArray.Props.C104_less_loop",
    "MultiArray.Props.C104_convert_loop",
    "MultiArray.Props.C104_traversal_exact",
    "MultiArray.Props.C104_reversed_range_never_ends",
    "MultiArray.Props.C104_conversion_on_machine",
    "MultiArray.Props.C104_copy_array_on_machine",
    "MultiArray.Props.C104_assignment_on_machine",
    "MultiArray.Props.C104_for_each_on_machine",
    "MultiArray.Props.C104_equal_on_machine",
    "MultiArray.Props.C104_less_on_machine",
    "MultiArray.Props.C104_last_step_overflows"
   ],
   "note": ""
  },
  {
   "property": "C105",
   "status": "proved",
   "theorems": [
    "MultiArray.Props.C105_schedule_independence",
    "MultiArray.Props.C105_no_data_race",
    "MultiArray.Props.C105_change_while_views_are_used",
    "MultiArray.Props.C105_header_race_hazard",
    "MultiArray.Props.C105_header_race"
   ],
   "note": ""
  },
  {
   "property": "C106",
   "status": "proved",
   "theorems": [
    "MultiArray.Props.C106_memory_images_decide_comparison",
    "MultiArray.Props.C106_images_do_not_order_fortran_arrays",
    "MultiArray.Props.C106_memory_image_round_trip",
    "MultiArray.Props.C106_memory_image_transposes",
    "MultiArray.Props.C106_save",
    "MultiArray.Props.C106_load",
    "MultiArray.Props.C106_for_each_round_trip",
    "MultiArray.Props.C106_memory_image_needs_same_order"
   ],
   "note": ""
  },
  {
   "property": "C107",
   "status": "proved",
   "theorems": [
    "MultiArray.Props.C107_retry_assignment",
    "MultiArray.Props.C107_retry_copy_array",
    "MultiArray.Props.C107_retry_assign",
    "MultiArray.Props.C107_retry_resize",
    "MultiArray.Props.C107_for_each_is_not_repeatable"
   ],
   "note": ""
  },
  {
   "property": "C108",
   "status": "proved",
   "theorems": [
    "MultiArray.Props.C108_conversion_chain",
    "MultiArray.Props.C108_round_trip",
    "MultiArray.Props.C108_path_independent",
    "MultiArray.Props.C108_interrupted_chain"
   ],
   "note": ""
  }
 ]
}